import Verif.Model.GrpcServer
import Verif.Model.Serialize
/-!
The rules of a server-side RPC, as a referee that reads a trace line by line.

* gRPC reports the end of a read or of a write only if one is in flight, and `OnDone` only once,
  after `Finish`, when nothing is in flight (grpcpp/support/server_callback.h).
* The reactor starts a read only if none is in flight, a write only if none is in flight, and
  neither after `Finish`; it calls `Finish` (or `StartWriteAndFinish`) at most once.
* The handler has one read and one write in flight at most, does not finish while a write is in
  flight, finishes at most once, asks for nothing after that, and answers that the end of the
  stream is handled if it finished before. If it leaves an event to the framework (answers
  `false`, or does not have the callback), it asks for nothing in that callback nor afterwards.

The referee stops at the first line that breaks a rule and says whose line it was.
-/
namespace HppProto.Spec
open HppProto

/-- What the referee keeps in mind. The first four are facts about the RPC, the others are what
the handler can know. -/
structure Standing where
  reading : Bool := false
  writing : Bool := false
  finished : Bool := false
  over : Bool := false
  /-- The handler asked for a read and has not been told its end. -/
  asksRead : Bool := false
  /-- The handler asked for a write and has not been told its end. -/
  asksWrite : Bool := false
  /-- The handler has finished the RPC. -/
  done : Bool := false
  /-- The handler left an event to the framework, which finishes the RPC. -/
  left : Bool := false
  /-- The handler has asked for something since the last event. -/
  acted : Bool := false
  deriving Repr, DecidableEq

inductive Verdict where
  | fine (s : Standing)
  /-- gRPC reported something impossible. -/
  | runtime
  /-- The handler asked for something it must not ask for. -/
  | handler
  /-- The reactor broke the rules of gRPC. -/
  | library
  deriving Repr, DecidableEq

def Standing.event (s : Standing) : Event → Verdict
  | .readOk _ => if s.reading then .fine { s with reading := false, asksRead := false, acted := false } else .runtime
  | .readEnd c later =>
    if s.reading && (!c || later) then .fine { s with reading := false, asksRead := false, acted := false }
    else .runtime
  | .writeOk => if s.writing then .fine { s with writing := false, asksWrite := false, acted := false } else .runtime
  | .writeFail _ =>
    if s.writing then .fine { s with writing := false, asksWrite := false, acted := false } else .runtime
  | .cancel => if s.over then .runtime else .fine { s with acted := false }
  | .poke _ => if s.over then .runtime else .fine { s with acted := false }
  | .done => if s.finished && !s.reading && !s.writing && !s.over then .fine { s with over := true } else .runtime

/-- May the handler still ask for something? -/
def Standing.free (s : Standing) : Bool := !s.done && !s.left

def Standing.act (M : Method) (s : Standing) : Act → Verdict
  | .startRead =>
    if M.clientStreaming && s.free && !s.asksRead then .fine { s with asksRead := true, acted := true } else .handler
  | .write _ | .writeRaw _ =>
    if M.serverStreaming && s.free && !s.asksWrite then .fine { s with asksWrite := true, acted := true }
    else .handler
  | .finish _ | .finishReply _ _ | .finishRaw _ _ =>
    if s.free && !s.asksWrite then .fine { s with done := true, acted := true } else .handler

def Standing.call (s : Standing) : Call → Verdict
  | .startRead => if !s.reading && !s.finished then .fine { s with reading := true } else .library
  | .startWrite _ => if !s.writing && !s.finished then .fine { s with writing := true } else .library
  | .finish _ | .finishWith _ _ => if !s.finished then .fine { s with finished := true } else .library

def Standing.answer (s : Standing) (handled : Bool) : Verdict :=
  if handled then .fine s else if s.done || s.acted then .handler else .fine { s with left := true }

def Verdict.next (M : Method) (v : Verdict) (l : Entry) : Verdict :=
  match v with
  | .fine s =>
    match l with
    | .event e => s.event e
    | .act a => s.act M a
    | .call c => s.call c
    | .answer h => s.answer h
  | v => v

/-- The verdict about a whole trace. -/
def judge (M : Method) (t : List Entry) : Verdict := t.foldl (Verdict.next M) (.fine {})

/-! ## What the handler does -/

section
variable {σ : Type} (H : Handler σ)

/-- A boolean callback; a handler without it does nothing and leaves the event to the framework. -/
def optional (f : Option (σ → σ × List Act × Bool)) (s : σ) : σ × List Act × Bool :=
  match f with
  | none => (s, [], false)
  | some f => f s

/-- What a handler in state `s` does about an event (docs/grpc-adapter.md, "Server Handler
Callback Contract"): its next state, its requests, and its answer if the callback has one. -/
def respond (s : σ) : Event → σ × List Act × Option Bool
  | .readOk b => ((H.readOk b s).1, (H.readOk b s).2, none)
  | .readEnd false _ => ((optional H.readEof s).1, (optional H.readEof s).2.1, some (optional H.readEof s).2.2)
  | .readEnd true _ => ((optional H.readCancel s).1, (optional H.readCancel s).2.1, some (optional H.readCancel s).2.2)
  | .writeOk => ((H.writeOk s).1, (H.writeOk s).2, none)
  | .writeFail _ => ((optional H.writeError s).1, (optional H.writeError s).2.1, some (optional H.writeError s).2.2)
  | .cancel => ((H.cancel s).1, (H.cancel s).2, none)
  | .poke n => ((H.poke n s).1, (H.poke n s).2, none)
  | .done => (s, [], none)

/-- The events of a schedule, each followed by what the handler does about it. -/
def scriptFrom (s : σ) : List Event → List Entry
  | [] => []
  | e :: es => .event e :: (respond H s e).2.1.map .act ++ (respond H s e).2.2.toList.map .answer ++
      scriptFrom (respond H s e).1 es

/-- What the handler does in an RPC with this schedule. -/
def script (es : List Event) : List Entry := H.start.2.map .act ++ scriptFrom H H.start.1 es

end

/-! ## What gRPC must be told -/

/-- What `write_binpb` to an empty container writes; `none` if it fails. -/
def encoding (C : Cfg) (limit id : Nat) (m : Msg) : Option (List Byte) :=
  match writeBinpb C limit true id m [] with
  | .ok (none, bytes) => some bytes
  | _ => none

/-- A call into gRPC with the bytes of the reply, however they are cut into slices. -/
inductive Told where
  | read
  | reply (bytes : List Byte)
  | finish (s : Status)
  | finishWith (bytes : List Byte) (s : Status)
  deriving Repr, DecidableEq

def Call.told : Call → Told
  | .startRead => .read
  | .startWrite b => .reply b.flatten
  | .finish s => .finish s
  | .finishWith b s => .finishWith b.flatten s

/-- What the request of a handler amounts to: its reply is sent as encoded, and if it cannot be
encoded, the RPC ends with INTERNAL. The only reply of a client-streaming method ends the RPC
with OK. -/
def dueAct (M : Method) (C : Cfg) (limit id : Nat) : Act → Told
  | .startRead => .read
  | .write m =>
    match encoding C limit id m with
    | some b => .reply b
    | none => .finish .internal
  | .writeRaw b => .reply b.flatten
  | .finish s => .finish s
  | .finishReply m s =>
    match encoding C limit id m with
    | some b => .finishWith b (if M = ⟨true, false⟩ then .ok else s)
    | none => .finish .internal
  | .finishRaw b s => .finishWith b.flatten s

/-- What an event amounts to that the handler leaves to the framework. -/
def dueEvent : Event → List Told
  | .readEnd _ cancelled => [.finish (if cancelled then .cancelled else .ok)]
  | .writeFail cancelled => [.finish (if cancelled then .cancelled else .unknown)]
  | _ => []

/-- What gRPC must have been told, given the other lines of a trace; `last` is the last event. -/
def due (M : Method) (C : Cfg) (limit id : Nat) (last : Event) : List Entry → List Told
  | [] => []
  | .event e :: t => due M C limit id e t
  | .act a :: t => dueAct M C limit id a :: due M C limit id last t
  | .answer false :: t => dueEvent last ++ due M C limit id last t
  | .answer true :: t => due M C limit id last t
  | .call _ :: t => due M C limit id last t

/-- Is this line something else than a call into gRPC? -/
def Entry.notCall : Entry → Bool
  | .call _ => false
  | _ => true

/-- What gRPC was told in a trace. -/
def told (t : List Entry) : List Told :=
  t.filterMap fun
    | .call c => some (Call.told c)
    | _ => none

/-- The messages that a handler gave as replies in a trace. -/
def replies (t : List Entry) : List Msg :=
  t.filterMap fun
    | .act (.write m) => some m
    | .act (.finishReply m _) => some m
    | _ => none

/-- The handler can make request `a` in some callback in some state. -/
inductive CanAsk {σ : Type} (H : Handler σ) (a : Act) : Prop
  | start (h : a ∈ H.start.2) : CanAsk H a
  | readOk (b s) (h : a ∈ (H.readOk b s).2) : CanAsk H a
  | readEof (f s) (hf : H.readEof = some f) (h : a ∈ (f s).2.1) : CanAsk H a
  | readCancel (f s) (hf : H.readCancel = some f) (h : a ∈ (f s).2.1) : CanAsk H a
  | writeOk (s) (h : a ∈ (H.writeOk s).2) : CanAsk H a
  | writeError (f s) (hf : H.writeError = some f) (h : a ∈ (f s).2.1) : CanAsk H a
  | cancel (s) (h : a ∈ (H.cancel s).2) : CanAsk H a
  | poke (n s) (h : a ∈ (H.poke n s).2) : CanAsk H a

end HppProto.Spec
