import Verif.Spec.Reactor
import Verif.Props.Sink
/-! Proofs about the server side of the gRPC adapter: the referee of `Verif/Spec/Reactor.lean`
follows every run. -/
namespace HppProto
open Spec

variable {M : Method} {C : Cfg} {limit id : Nat}

theorem judge_append (t u : List Entry) : judge M (t ++ u) = u.foldl (Verdict.next M) (judge M t) := by
  simp only [judge, List.foldl_append]

theorem judge_stop {v : Verdict} (hv : ∀ s, v ≠ .fine s) (u : List Entry) : u.foldl (Verdict.next M) v = v := by
  induction u with
  | nil => rfl
  | cons l u ih =>
    have : Verdict.next M v l = v := by
      cases v with
      | fine s => exact absurd rfl (hv s)
      | _ => rfl
    rw [List.foldl_cons, this]; exact ih

/-- What one request of a handler makes the reactor call. -/
inductive CallOf (M : Method) : Act → Call → Prop
  | read : CallOf M .startRead .startRead
  | write (m b) : CallOf M (.write m) (.startWrite b)
  | writeBad (m s) : CallOf M (.write m) (.finish s)
  | writeRaw (b) : CallOf M (.writeRaw b) (.startWrite b)
  | finish (s) : CallOf M (.finish s) (.finish s)
  | reply (m s b s') : CallOf M (.finishReply m s) (.finishWith b s')
  | replyBad (m s s') : CallOf M (.finishReply m s) (.finish s')
  | raw (b s) : CallOf M (.finishRaw b s) (.finishWith b s)

theorem calls_of {a : Act} {cs : List Call} (h : a.calls M C limit id = .ok cs) :
    ∃ c, cs = [c] ∧ CallOf M a c ∧
      (∀ m s, a = .write m → c = .finish s → ∃ b, grpcPut C limit none id m [] = .ok (s, b) ∧ s ≠ .ok) := by
  cases a with
  | startRead => cases h; exact ⟨_, rfl, .read, by intros; contradiction⟩
  | writeRaw b => cases h; exact ⟨_, rfl, .writeRaw b, by intros; contradiction⟩
  | finish s => cases h; exact ⟨_, rfl, .finish s, by intros; contradiction⟩
  | finishRaw b s => cases h; exact ⟨_, rfl, .raw b s, by intros; contradiction⟩
  | write m =>
    rw [Act.calls] at h
    cases hp : grpcPut C limit none id m [] with
    | ok p =>
      obtain ⟨st, b⟩ := p
      rw [hp] at h
      change (if st = .ok then _ else _) = _ at h
      by_cases hs : st = .ok
      · rw [if_pos hs] at h; cases h
        exact ⟨_, rfl, .write m b, by intros; contradiction⟩
      · rw [if_neg hs] at h; cases h
        refine ⟨_, rfl, .writeBad m st, ?_⟩
        intro m' s' hm hs'; cases hm; cases hs'
        exact ⟨b, hp, hs⟩
    | _ => rw [hp] at h; cases h
  | finishReply m s =>
    rw [Act.calls] at h
    cases hp : grpcPut C limit none id m [] with
    | ok p =>
      obtain ⟨st, b⟩ := p
      rw [hp] at h
      change (if st = .ok then _ else _) = _ at h
      by_cases hs : st = .ok
      · rw [if_pos hs] at h; cases h
        exact ⟨_, rfl, .reply m s b _, by intros; contradiction⟩
      · rw [if_neg hs] at h; cases h
        exact ⟨_, rfl, .replyBad m s _, by intros; contradiction⟩
    | _ => rw [hp] at h; cases h

/-- `a` implies `b`. -/
def imp (a b : Bool) : Bool := !a || b

/-- What holds between callbacks and between requests. `strict` is for methods that stream both
ways: no event is left to the framework and every reply can be encoded. -/
def settled (M : Method) (strict : Bool) (s : Standing) : Bool :=
  imp s.asksRead M.clientStreaming && imp s.asksWrite M.serverStreaming && s.reading == s.asksRead &&
    imp s.writing s.asksWrite && imp strict (s.writing == s.asksWrite && !s.left) &&
    imp s.finished (s.done || s.left || (s.asksWrite && !s.writing)) &&
    imp s.done (s.finished && !s.asksWrite) && imp s.left (s.finished && !s.reading && !s.writing) &&
    imp s.over (s.finished && !s.reading && !s.writing)

/-- The methods for which `settled` is kept. -/
def Method.fits (M : Method) (strict : Bool) : Bool := strict || !M.clientStreaming || !M.serverStreaming

/-- The referee after a request and its call: not against the library, and settled. -/
def goodAfter (M : Method) (strict : Bool) (v : Verdict) : Bool :=
  match v with
  | .fine s => settled M strict s && s.acted
  | .library => false
  | _ => true

/-- `act_settled` for one request, over all standings and methods. -/
def reqGood (strict : Bool) (a : Act) (c : Call) : Prop :=
  ∀ cs ss reading writing finished over asksRead asksWrite done left acted,
    Method.fits ⟨cs, ss⟩ strict = true →
    settled ⟨cs, ss⟩ strict ⟨reading, writing, finished, over, asksRead, asksWrite, done, left, acted⟩ = true →
    goodAfter ⟨cs, ss⟩ strict (([.act a, .call c] : List Entry).foldl (Verdict.next ⟨cs, ss⟩)
      (.fine ⟨reading, writing, finished, over, asksRead, asksWrite, done, left, acted⟩)) = true

theorem act_settled {strict : Bool} {s : Standing} (hM : M.fits strict = true) (hs : settled M strict s = true) {a : Act}
    {c : Call} (hc : CallOf M a c) (henc : strict = true → ∀ m s, a = .write m → c ≠ .finish s) :
    goodAfter M strict (([.act a, .call c] : List Entry).foldl (Verdict.next M) (.fine s)) = true := by
  suffices h : reqGood strict a c by
    obtain ⟨reading, writing, finished, over, asksRead, asksWrite, done, left, acted⟩ := s
    obtain ⟨cs, ss⟩ := M
    exact h cs ss reading writing finished over asksRead asksWrite done left acted hM hs
  have w : ∀ strict, reqGood strict (.writeRaw []) (.startWrite []) := by unfold reqGood; decide +kernel
  have wb : reqGood false (.writeRaw []) (.finish .ok) := by unfold reqGood; decide +kernel
  have f : ∀ strict, reqGood strict (.finish .ok) (.finish .ok) := by unfold reqGood; decide +kernel
  have rd : ∀ strict, reqGood strict .startRead .startRead := by unfold reqGood; decide +kernel
  cases hc with
  | read => exact rd strict
  | write m b => exact w strict
  | writeBad m s =>
    have hst : strict = false := by
      cases strict with
      | false => rfl
      | true => exact absurd rfl (henc rfl m s rfl)
    subst hst
    exact wb
  | writeRaw b => exact w strict
  | finish s => exact f strict
  | reply m s b s' => exact f strict
  | replyBad m s s' => exact f strict
  | raw b s => exact f strict

/-- The verdict about a trace is not against the library, and if it is fine, `settled` holds. -/
def good (M : Method) (strict : Bool) (v : Verdict) : Bool :=
  match v with
  | .fine s => settled M strict s
  | .library => false
  | _ => true

/-- No reply of the trace that a strict run may not have. -/
def Clean (C : Cfg) (limit id : Nat) (strict : Bool) (t : List Entry) : Prop :=
  strict = true → .answer false ∉ t ∧
    ∀ m s b, .act (.write m) ∈ t → grpcPut C limit none id m [] = .ok (s, b) → s = .ok

theorem Clean.mono {strict : Bool} {t u : List Entry} (h : Clean C limit id strict u) (hp : t <+: u) :
    Clean C limit id strict t := by
  intro hs
  obtain ⟨h1, h2⟩ := h hs
  exact ⟨fun hm => h1 (hp.subset hm), fun m s b hm => h2 m s b (hp.subset hm)⟩

theorem runActs_prefix : ∀ {as : List Act} {t t' : List Entry}, runActs M C limit id as t = .ok t' → t <+: t'
  | [], t, t', h => by cases h; exact List.prefix_rfl
  | a :: as, t, t', h => by
    rw [runActs] at h
    cases hc : a.calls M C limit id with
    | ok cs =>
      rw [hc] at h
      exact (List.prefix_append _ _).trans (runActs_prefix h)
    | _ => rw [hc] at h; cases h

theorem goodAfter_good {strict : Bool} {v : Verdict} (h : goodAfter M strict v = true) :
    good M strict v = true ∧ ∀ s, v = .fine s → s.acted = true := by
  cases v with
  | fine s =>
    simp only [goodAfter, Bool.and_eq_true] at h
    exact ⟨h.1, fun s' hs => by cases hs; exact h.2⟩
  | library => cases h
  | _ => exact ⟨rfl, fun s' hs => by cases hs⟩

theorem good_stop {strict : Bool} {v : Verdict} (h : good M strict v = true) (hv : ∀ s, v ≠ .fine s) (u : List Entry) :
    good M strict (u.foldl (Verdict.next M) v) = true := by
  rw [judge_stop hv u]; exact h

theorem runActs_good {strict : Bool} (hM : M.fits strict = true) :
    ∀ {as : List Act} {t t' : List Entry}, runActs M C limit id as t = .ok t' → Clean C limit id strict t' →
      good M strict (judge M t) = true →
      good M strict (judge M t') = true ∧ ((as = [] ∧ t' = t) ∨ ∀ s, judge M t' = .fine s → s.acted = true)
  | [], t, t', h, _, hg => by cases h; exact ⟨hg, .inl ⟨rfl, rfl⟩⟩
  | a :: as, t, t', h, hcl, hg => by
    rw [runActs] at h
    cases hc : a.calls M C limit id with
    | ok cs =>
      rw [hc] at h
      replace h : runActs M C limit id as (t ++ .act a :: cs.map .call) = .ok t' := h
      obtain ⟨c, rfl, hof, hbad⟩ := calls_of hc
      have hpre := runActs_prefix h
      have step : good M strict (judge M (t ++ [.act a, .call c])) = true ∧
          ∀ s, judge M (t ++ [.act a, .call c]) = .fine s → s.acted = true := by
        rw [judge_append]
        cases hj : judge M t with
        | fine s =>
          rw [hj] at hg
          refine goodAfter_good (act_settled hM hg hof ?_)
          intro hst m s' ha hcf
          obtain ⟨b, hp, hne⟩ := hbad m s' ha hcf
          refine hne (((hcl hst).2 m s' b (hpre.subset ?_)) hp)
          rw [← ha]; simp
        | library => rw [hj] at hg; cases hg
        | _ => exact ⟨rfl, fun s hs => by cases hs⟩
      obtain ⟨h1, h2⟩ := runActs_good hM h hcl step.1
      refine ⟨h1, .inr ?_⟩
      rcases h2 with ⟨-, rfl⟩ | h2
      · exact step.2
      · exact h2
    | _ => rw [hc] at h; cases h

/-- The standing after an event that the handler may leave to the framework. -/
def fresh (s : Standing) : Bool := imp s.finished s.done && !s.reading && !s.writing

/-- After an event: still settled, and fresh if the event may be left to the framework. -/
def eventGood (strict : Bool) (asks : Bool) (e : Event) : Prop :=
  ∀ cs ss reading writing finished over asksRead asksWrite done left acted,
    Method.fits ⟨cs, ss⟩ strict = true →
    settled ⟨cs, ss⟩ strict ⟨reading, writing, finished, over, asksRead, asksWrite, done, left, acted⟩ = true →
    (match (⟨reading, writing, finished, over, asksRead, asksWrite, done, left, acted⟩ : Standing).event e with
      | .fine s => settled ⟨cs, ss⟩ strict s && imp (asks && !strict) (fresh s)
      | .library => false
      | _ => true) = true

/-- Is this an event that the handler may leave to the framework? -/
def Event.asks : Event → Bool
  | .readEnd _ _ | .writeFail _ => true
  | _ => false

theorem event_good (strict : Bool) (e : Event) : eventGood strict e.asks e := by
  have r : ∀ strict, eventGood strict false (.readOk []) := by unfold eventGood; decide +kernel
  have re : ∀ strict c l, eventGood strict true (.readEnd c l) := by unfold eventGood; decide +kernel
  have w : ∀ strict, eventGood strict false .writeOk := by unfold eventGood; decide +kernel
  have wf : ∀ strict, eventGood strict true (.writeFail false) := by unfold eventGood; decide +kernel
  have ca : ∀ strict, eventGood strict false .cancel := by unfold eventGood; decide +kernel
  have d : ∀ strict, eventGood strict false .done := by unfold eventGood; decide +kernel
  cases e with
  | readOk b => exact r strict
  | readEnd c l => exact re strict c l
  | writeOk => exact w strict
  | writeFail c => exact wf strict
  | cancel => exact ca strict
  | poke n => exact ca strict
  | done => exact d strict

theorem after_event {strict : Bool} (hM : M.fits strict = true) (e : Event) {t : List Entry}
    (hg : good M strict (judge M t) = true) :
    good M strict (judge M (t ++ [.event e])) = true ∧
      (e.asks = true → strict = false → ∀ s, judge M (t ++ [.event e]) = .fine s → fresh s = true) := by
  rw [judge_append]
  cases hj : judge M t with
  | fine s =>
    rw [hj] at hg
    have h := event_good strict e M.clientStreaming M.serverStreaming s.reading s.writing s.finished s.over s.asksRead
      s.asksWrite s.done s.left s.acted hM hg
    show good M strict (s.event e) = true ∧ _
    change (match s.event e with
      | .fine s => settled M strict s && imp (e.asks && !strict) (fresh s)
      | .library => false
      | _ => true) = true at h
    cases hv : s.event e with
    | fine s' =>
      rw [hv] at h
      simp only [Bool.and_eq_true] at h
      refine ⟨h.1, fun ha hs s'' he => ?_⟩
      replace he : s.event e = .fine s'' := he
      rw [hv] at he; cases he
      have := h.2
      rw [ha, hs] at this
      simpa [imp] using this
    | library => rw [hv] at h; cases h
    | runtime =>
      refine ⟨rfl, fun _ _ s'' he => ?_⟩
      replace he : s.event e = .fine s'' := he
      rw [hv] at he; cases he
    | handler =>
      refine ⟨rfl, fun _ _ s'' he => ?_⟩
      replace he : s.event e = .fine s'' := he
      rw [hv] at he; cases he
  | library => rw [hj] at hg; cases hg
  | _ => exact ⟨rfl, fun _ _ s hs => by cases hs⟩

/-- Leaving an event to the framework. -/
theorem left_good : ∀ cs ss reading writing finished over asksRead asksWrite done left acted,
    Method.fits ⟨cs, ss⟩ false = true →
    settled ⟨cs, ss⟩ false ⟨reading, writing, finished, over, asksRead, asksWrite, done, left, acted⟩ = true →
    (acted || fresh ⟨reading, writing, finished, over, asksRead, asksWrite, done, left, acted⟩) = true →
    good ⟨cs, ss⟩ false (([.answer false, .call (.finish .ok)] : List Entry).foldl (Verdict.next ⟨cs, ss⟩)
      (.fine ⟨reading, writing, finished, over, asksRead, asksWrite, done, left, acted⟩)) = true := by
  decide +kernel

variable {σ : Type} {H : Handler σ}

theorem plain_good {strict : Bool} (hM : M.fits strict = true) {r r' : Reactor σ} {f : σ → σ × List Act}
    (h : r.plain M C limit id f = .ok r') (hcl : Clean C limit id strict r'.trace)
    (hg : good M strict (judge M r.trace) = true) :
    good M strict (judge M r'.trace) = true ∧ r.trace <+: r'.trace := by
  rw [Reactor.plain] at h
  cases ha : runActs M C limit id (f r.handler).2 r.trace with
  | ok t =>
    rw [ha] at h
    cases h
    exact ⟨(runActs_good hM ha hcl hg).1, runActs_prefix ha⟩
  | _ => rw [ha] at h; cases h

theorem fallback_good {strict : Bool} (hM : M.fits strict = true) {t : List Entry} {st : Status}
    (hcl : Clean C limit id strict (t ++ [.answer false, .call (.finish st)]))
    (hg : good M strict (judge M t) = true)
    (hf : strict = false → ∀ s, judge M t = .fine s → (s.acted || fresh s) = true) :
    good M strict (judge M (t ++ [.answer false, .call (.finish st)])) = true := by
  cases strict with
  | true => exact absurd (by simp) (hcl rfl).1
  | false =>
    rw [judge_append]
    cases hj : judge M t with
    | fine s =>
      rw [hj] at hg
      exact left_good M.clientStreaming M.serverStreaming s.reading s.writing s.finished s.over s.asksRead
        s.asksWrite s.done s.left s.acted hM hg (hf rfl s hj)
    | library => rw [hj] at hg; cases hg
    | _ => rfl

theorem asked_good {strict : Bool} (hM : M.fits strict = true) {r r' : Reactor σ}
    {f : Option (σ → σ × List Act × Bool)} {st : Status} (h : r.asked M C limit id f st = .ok r')
    (hcl : Clean C limit id strict r'.trace) (hg : good M strict (judge M r.trace) = true)
    (hf : strict = false → ∀ s, judge M r.trace = .fine s → fresh s = true) :
    good M strict (judge M r'.trace) = true ∧ r.trace <+: r'.trace := by
  cases f with
  | none =>
    cases h
    exact ⟨fallback_good hM hcl hg (fun hs s hj => by rw [hf hs s hj, Bool.or_true]), List.prefix_append _ _⟩
  | some f =>
    replace h : (do
      let t ← runActs M C limit id (f r.handler).2.1 r.trace
      if (f r.handler).2.2 then .ok ⟨(f r.handler).1, t ++ [.answer true]⟩
      else .ok ⟨(f r.handler).1, t ++ [.answer false, .call (.finish st)]⟩ : Res (Reactor σ)) = .ok r' := h
    cases ha : runActs M C limit id (f r.handler).2.1 r.trace with
    | ok t =>
      rw [ha] at h
      replace h : (if (f r.handler).2.2 then .ok ⟨(f r.handler).1, t ++ [.answer true]⟩
        else .ok ⟨(f r.handler).1, t ++ [.answer false, .call (.finish st)]⟩ : Res (Reactor σ)) = .ok r' := h
      have hpre := runActs_prefix ha
      cases hb : (f r.handler).2.2 with
      | true =>
        rw [hb] at h; cases h
        obtain ⟨h1, -⟩ := runActs_good hM ha (hcl.mono (List.prefix_append _ _)) hg
        refine ⟨?_, hpre.trans (List.prefix_append _ _)⟩
        rw [judge_append]
        cases hj : judge M t with
        | fine s => rw [hj] at h1; exact h1
        | library => rw [hj] at h1; cases h1
        | _ => rfl
      | false =>
        rw [hb] at h; cases h
        obtain ⟨h1, h2⟩ := runActs_good hM ha (hcl.mono (List.prefix_append _ _)) hg
        refine ⟨fallback_good hM hcl h1 ?_, hpre.trans (List.prefix_append _ _)⟩
        intro hs s hj
        rcases h2 with ⟨-, rfl⟩ | h2
        · rw [hf hs s hj, Bool.or_true]
        · rw [h2 s hj, Bool.true_or]
    | _ => rw [ha] at h; cases h

theorem one_event {strict : Bool} (hM : M.fits strict = true) {r r' : Reactor σ} {e : Event}
    (h : r.event M C limit id H e = .ok r') (hcl : Clean C limit id strict r'.trace)
    (hg : good M strict (judge M r.trace) = true) :
    good M strict (judge M r'.trace) = true ∧ r.trace <+: r'.trace := by
  obtain ⟨h1, h2⟩ := after_event hM e hg
  have hp : ∀ {u : List Entry}, r.trace ++ [.event e] <+: u → r.trace <+: u :=
    fun hu => (List.prefix_append _ _).trans hu
  cases e with
  | readOk b => obtain ⟨a, b⟩ := plain_good hM h hcl h1; exact ⟨a, hp b⟩
  | readEnd c l => obtain ⟨a, b⟩ := asked_good hM h hcl h1 (h2 rfl); exact ⟨a, hp b⟩
  | writeOk => obtain ⟨a, b⟩ := plain_good hM h hcl h1; exact ⟨a, hp b⟩
  | writeFail c => obtain ⟨a, b⟩ := asked_good hM h hcl h1 (h2 rfl); exact ⟨a, hp b⟩
  | cancel => obtain ⟨a, b⟩ := plain_good hM h hcl h1; exact ⟨a, hp b⟩
  | poke n => obtain ⟨a, b⟩ := plain_good hM h hcl h1; exact ⟨a, hp b⟩
  | done => cases h; exact ⟨h1, List.prefix_append _ _⟩

theorem run_prefix : ∀ {es : List Event} {r r' : Reactor σ}, Reactor.run M C limit id H es r = .ok r' →
    r.trace <+: r'.trace
  | [], r, r', h => by cases h; exact List.prefix_rfl
  | e :: es, r, r', h => by
    rw [Reactor.run] at h
    cases he : r.event M C limit id H e with
    | ok r1 =>
      rw [he] at h
      refine List.IsPrefix.trans ?_ (run_prefix (r := r1) h)
      have hp : ∀ {u : List Entry}, r.trace ++ [.event e] <+: u → r.trace <+: u :=
        fun hu => (List.prefix_append _ _).trans hu
      have pl : ∀ {f r2}, Reactor.plain M C limit id (⟨r.handler, r.trace ++ [.event e]⟩ : Reactor σ) f = .ok r2 →
          r.trace <+: r2.trace := by
        intro f r2 h
        rw [Reactor.plain] at h
        cases ha : runActs M C limit id (f r.handler).2 (r.trace ++ [.event e]) with
        | ok t => rw [ha] at h; cases h; exact hp (runActs_prefix ha)
        | _ => rw [ha] at h; cases h
      have ak : ∀ {f st r2}, Reactor.asked M C limit id (⟨r.handler, r.trace ++ [.event e]⟩ : Reactor σ) f st = .ok r2 →
          r.trace <+: r2.trace := by
        intro f st r2 h
        cases f with
        | none => cases h; exact hp (List.prefix_append _ _)
        | some f =>
          cases ha : runActs M C limit id (f r.handler).2.1 (r.trace ++ [.event e]) with
          | ok t =>
            have hpre := hp (runActs_prefix ha)
            replace h : (do
              let t ← runActs M C limit id (f r.handler).2.1 (r.trace ++ [.event e])
              if (f r.handler).2.2 then .ok ⟨(f r.handler).1, t ++ [.answer true]⟩
              else .ok ⟨(f r.handler).1, t ++ [.answer false, .call (.finish st)]⟩ : Res (Reactor σ)) = .ok r2 := h
            rw [ha] at h
            replace h : (if (f r.handler).2.2 then .ok ⟨(f r.handler).1, t ++ [.answer true]⟩
              else .ok ⟨(f r.handler).1, t ++ [.answer false, .call (.finish st)]⟩ : Res (Reactor σ)) = .ok r2 := h
            cases hb : (f r.handler).2.2 <;> rw [hb] at h <;> cases h <;>
              exact hpre.trans (List.prefix_append _ _)
          | _ =>
            replace h : (do
              let t ← runActs M C limit id (f r.handler).2.1 (r.trace ++ [.event e])
              if (f r.handler).2.2 then .ok ⟨(f r.handler).1, t ++ [.answer true]⟩
              else .ok ⟨(f r.handler).1, t ++ [.answer false, .call (.finish st)]⟩ : Res (Reactor σ)) = .ok r2 := h
            rw [ha] at h; cases h
      cases e with
      | readOk b => exact pl he
      | readEnd c l => exact ak he
      | writeOk => exact pl he
      | writeFail c => exact ak he
      | cancel => exact pl he
      | poke n => exact pl he
      | done => cases he; exact List.prefix_append _ _
    | _ => rw [he] at h; cases h

theorem run_good {strict : Bool} (hM : M.fits strict = true) : ∀ {es : List Event} {r r' : Reactor σ},
    Reactor.run M C limit id H es r = .ok r' → Clean C limit id strict r'.trace →
    good M strict (judge M r.trace) = true → good M strict (judge M r'.trace) = true
  | [], r, r', h, _, hg => by cases h; exact hg
  | e :: es, r, r', h, hcl, hg => by
    rw [Reactor.run] at h
    cases he : r.event M C limit id H e with
    | ok r1 =>
      rw [he] at h
      replace h : Reactor.run M C limit id H es r1 = .ok r' := h
      exact run_good hM h hcl (one_event hM he (hcl.mono (run_prefix h)) hg).1
    | _ => rw [he] at h; cases h

theorem serve_good {strict : Bool} (hM : M.fits strict = true) {es : List Event} {r : Reactor σ}
    (h : serve M C limit id H es = .ok r) (hcl : Clean C limit id strict r.trace) :
    good M strict (judge M r.trace) = true := by
  rw [serve, Reactor.start] at h
  cases ha : runActs M C limit id H.start.2 [] with
  | ok t =>
    rw [ha] at h
    replace h : Reactor.run M C limit id H es ⟨H.start.1, t⟩ = .ok r := h
    refine run_good hM h hcl (runActs_good hM ha (hcl.mono (run_prefix h)) ?_).1
    have init : ∀ cs ss strict, good ⟨cs, ss⟩ strict (judge ⟨cs, ss⟩ []) = true := by decide
    exact init M.clientStreaming M.serverStreaming strict
  | _ => rw [ha] at h; cases h

/-! ## What gRPC is told -/

/-- The last event of a trace. -/
def lastEvent (last : Event) : List Entry → Event
  | [] => last
  | .event e :: t => lastEvent e t
  | _ :: t => lastEvent last t

theorem due_append : ∀ (last : Event) (t u : List Entry),
    due M C limit id last (t ++ u) = due M C limit id last t ++ due M C limit id (lastEvent last t) u
  | _, [], _ => rfl
  | last, l :: t, u => by
    cases l with
    | event e => exact due_append e t u
    | act a =>
      exact congrArg (dueAct M C limit id a :: ·) (due_append last t u)
    | call c => exact due_append last t u
    | answer h =>
      cases h with
      | true => exact due_append last t u
      | false =>
        show dueEvent last ++ _ = (dueEvent last ++ _) ++ _
        rw [List.append_assoc]
        exact congrArg (dueEvent last ++ ·) (due_append last t u)

theorem lastEvent_append : ∀ (last : Event) (t u : List Entry),
    lastEvent last (t ++ u) = lastEvent (lastEvent last t) u
  | _, [], _ => rfl
  | last, l :: t, u => by
    cases l with
    | event e => exact lastEvent_append e t u
    | _ => exact lastEvent_append last t u

theorem told_append (t u : List Entry) : told (t ++ u) = told t ++ told u := by
  simp only [told, List.filterMap_append]

theorem put_encoding (hN : numbersOk C) {m : Msg} (hl : (Props.wire C limit id m).length < 2 ^ 64)
    {st : Status} {b : List (List Byte)} (h : grpcPut C limit none id m [] = .ok (st, b)) :
    (st = .ok ∧ encoding C limit id m = some b.flatten) ∨ (st = .internal ∧ encoding C limit id m = none) := by
  obtain ⟨h1, h2⟩ := Props.C50_grpc C hN limit id m none [] hl
  obtain ⟨e, bytes, hw⟩ := Props.C08_no_ub C hN limit id m true [] hl
  rw [grpcPut] at h
  cases e with
  | none =>
    rw [h1 [] bytes hw] at h
    cases h
    refine .inl ⟨rfl, ?_⟩
    rw [encoding, hw]
    by_cases hb : bytes = []
    · subst hb; rfl
    · rw [if_neg hb]; simp
  | some e =>
    obtain ⟨e', h2⟩ := h2 [] bytes e hw
    rw [h2] at h
    cases h
    exact .inr ⟨rfl, by rw [encoding, hw]⟩

/-- The replies of a trace are within the limits of the model. -/
def Sized (C : Cfg) (limit id : Nat) (t : List Entry) : Prop :=
  ∀ m ∈ replies t, (Props.wire C limit id m).length < 2 ^ 64

theorem Sized.mono {t u : List Entry} (h : Sized C limit id u) (hp : t <+: u) : Sized C limit id t := by
  intro m hm
  refine h m ?_
  obtain ⟨v, rfl⟩ := hp
  rw [replies, List.filterMap_append]
  exact List.mem_append.2 (.inl hm)

theorem calls_due (hN : numbersOk C) {a : Act} {cs : List Call} (hs : Sized C limit id [.act a])
    (h : a.calls M C limit id = .ok cs) : cs.map Call.told = [dueAct M C limit id a] := by
  cases a with
  | startRead => cases h; rfl
  | writeRaw b => cases h; rfl
  | finish s => cases h; rfl
  | finishRaw b s => cases h; rfl
  | write m =>
    rw [Act.calls] at h
    cases hp : grpcPut C limit none id m [] with
    | ok p =>
      obtain ⟨st, b⟩ := p
      rw [hp] at h
      change (if st = .ok then _ else _) = _ at h
      rw [dueAct]
      rcases put_encoding hN (hs m (by simp [replies])) hp with ⟨rfl, he⟩ | ⟨rfl, he⟩
      · rw [he]; cases h; rfl
      · rw [he]; cases h; rfl
    | _ => rw [hp] at h; cases h
  | finishReply m s =>
    rw [Act.calls] at h
    cases hp : grpcPut C limit none id m [] with
    | ok p =>
      obtain ⟨st, b⟩ := p
      rw [hp] at h
      change (if st = .ok then _ else _) = _ at h
      rw [dueAct]
      rcases put_encoding hN (hs m (by simp [replies])) hp with ⟨rfl, he⟩ | ⟨rfl, he⟩
      · rw [he]; cases h
        show [Told.finishWith b.flatten (finishStatus M s)] = _
        obtain ⟨c, d⟩ := M
        cases c <;> cases d <;> rfl
      · rw [he]; cases h; rfl
    | _ => rw [hp] at h; cases h

theorem told_calls (cs : List Call) : told (cs.map .call) = cs.map Call.told := by
  induction cs with
  | nil => rfl
  | cons c cs ih => exact congrArg (Call.told c :: ·) ih

theorem due_calls (last : Event) (cs : List Call) : due M C limit id last (cs.map .call) = [] := by
  induction cs with
  | nil => rfl
  | cons c cs ih => exact ih

theorem lastEvent_calls (last : Event) (cs : List Call) : lastEvent last (cs.map .call) = last := by
  induction cs with
  | nil => rfl
  | cons c cs ih => exact ih

/-- gRPC was told what was due. -/
def Paid (M : Method) (C : Cfg) (limit id : Nat) (t : List Entry) : Prop :=
  told t = due M C limit id .cancel t

theorem runActs_paid (hN : numbersOk C) : ∀ {as : List Act} {t t' : List Entry}, runActs M C limit id as t = .ok t' →
    Sized C limit id t' → Paid M C limit id t → Paid M C limit id t' ∧ lastEvent .cancel t' = lastEvent .cancel t
  | [], t, t', h, _, hp => by cases h; exact ⟨hp, rfl⟩
  | a :: as, t, t', h, hs, hp => by
    rw [runActs] at h
    cases hc : a.calls M C limit id with
    | ok cs =>
      rw [hc] at h
      replace h : runActs M C limit id as (t ++ .act a :: cs.map .call) = .ok t' := h
      have hs1 : Sized C limit id [.act a] := by
        have := hs.mono (runActs_prefix h)
        intro m hm
        refine this m ?_
        rw [replies, List.filterMap_append, show Entry.act a :: cs.map .call = [.act a] ++ cs.map .call from rfl,
          List.filterMap_append]
        exact List.mem_append.2 (.inr (List.mem_append.2 (.inl hm)))
      have e1 : Paid M C limit id (t ++ .act a :: cs.map .call) := by
        rw [Paid, told_append, due_append, hp]
        refine congrArg (_ ++ ·) ?_
        show told (cs.map .call) = dueAct M C limit id a :: due M C limit id _ (cs.map .call)
        rw [told_calls, calls_due hN hs1 hc, due_calls]
      obtain ⟨h1, h2⟩ := runActs_paid hN h hs e1
      refine ⟨h1, ?_⟩
      rw [h2, lastEvent_append]
      exact lastEvent_calls _ cs
    | _ => rw [hc] at h; cases h

theorem paid_event {t : List Entry} (e : Event) (h : Paid M C limit id t) :
    Paid M C limit id (t ++ [.event e]) ∧ lastEvent .cancel (t ++ [.event e]) = e := by
  refine ⟨?_, ?_⟩
  · rw [Paid, told_append, due_append, h]; rfl
  · rw [lastEvent_append]; rfl

theorem paid_plain (hN : numbersOk C) {r r' : Reactor σ} {f : σ → σ × List Act}
    (h : r.plain M C limit id f = .ok r') (hs : Sized C limit id r'.trace) (hp : Paid M C limit id r.trace) :
    Paid M C limit id r'.trace := by
  rw [Reactor.plain] at h
  cases ha : runActs M C limit id (f r.handler).2 r.trace with
  | ok t =>
    rw [ha] at h
    cases h
    exact (runActs_paid hN ha hs hp).1
  | _ => rw [ha] at h; cases h

theorem paid_fallback {t : List Entry} {st : Status} (hp : Paid M C limit id t)
    (hl : dueEvent (lastEvent .cancel t) = [.finish st]) :
    Paid M C limit id (t ++ [.answer false, .call (.finish st)]) := by
  rw [Paid, told_append, due_append, hp]
  refine congrArg (_ ++ ·) ?_
  show [Told.finish st] = dueEvent _ ++ _
  rw [hl]; rfl

theorem paid_asked (hN : numbersOk C) {r r' : Reactor σ} {f : Option (σ → σ × List Act × Bool)} {st : Status}
    (h : r.asked M C limit id f st = .ok r') (hs : Sized C limit id r'.trace) (hp : Paid M C limit id r.trace)
    (hl : dueEvent (lastEvent .cancel r.trace) = [.finish st]) : Paid M C limit id r'.trace := by
  cases f with
  | none => cases h; exact paid_fallback hp hl
  | some f =>
    replace h : (do
      let t ← runActs M C limit id (f r.handler).2.1 r.trace
      if (f r.handler).2.2 then .ok ⟨(f r.handler).1, t ++ [.answer true]⟩
      else .ok ⟨(f r.handler).1, t ++ [.answer false, .call (.finish st)]⟩ : Res (Reactor σ)) = .ok r' := h
    cases ha : runActs M C limit id (f r.handler).2.1 r.trace with
    | ok t =>
      rw [ha] at h
      replace h : (if (f r.handler).2.2 then .ok ⟨(f r.handler).1, t ++ [.answer true]⟩
        else .ok ⟨(f r.handler).1, t ++ [.answer false, .call (.finish st)]⟩ : Res (Reactor σ)) = .ok r' := h
      cases hb : (f r.handler).2.2 with
      | true =>
        rw [hb] at h; cases h
        have h1 := (runActs_paid hN ha (hs.mono (List.prefix_append _ _)) hp).1
        show told _ = due _ _ _ _ _ _
        rw [told_append, due_append, h1]; rfl
      | false =>
        rw [hb] at h; cases h
        obtain ⟨h1, h2⟩ := runActs_paid hN ha (hs.mono (List.prefix_append _ _)) hp
        exact paid_fallback h1 (by rw [h2]; exact hl)
    | _ => rw [ha] at h; cases h

theorem paid_one (hN : numbersOk C) {r r' : Reactor σ} {e : Event} (h : r.event M C limit id H e = .ok r')
    (hs : Sized C limit id r'.trace) (hp : Paid M C limit id r.trace) : Paid M C limit id r'.trace := by
  obtain ⟨h1, h2⟩ := paid_event e hp
  cases e with
  | readOk b => exact paid_plain hN h hs h1
  | readEnd c l => exact paid_asked hN h hs h1 (by rw [h2]; rfl)
  | writeOk => exact paid_plain hN h hs h1
  | writeFail c => exact paid_asked hN h hs h1 (by rw [h2]; rfl)
  | cancel => exact paid_plain hN h hs h1
  | poke n => exact paid_plain hN h hs h1
  | done => cases h; exact h1

theorem paid_run (hN : numbersOk C) : ∀ {es : List Event} {r r' : Reactor σ},
    Reactor.run M C limit id H es r = .ok r' → Sized C limit id r'.trace → Paid M C limit id r.trace →
    Paid M C limit id r'.trace
  | [], r, r', h, _, hp => by cases h; exact hp
  | e :: es, r, r', h, hs, hp => by
    rw [Reactor.run] at h
    cases he : r.event M C limit id H e with
    | ok r1 =>
      rw [he] at h
      replace h : Reactor.run M C limit id H es r1 = .ok r' := h
      exact paid_run hN h hs (paid_one hN he (hs.mono (run_prefix h)) hp)
    | _ => rw [he] at h; cases h

theorem paid_serve (hN : numbersOk C) {es : List Event} {r : Reactor σ} (h : serve M C limit id H es = .ok r)
    (hs : Sized C limit id r.trace) : Paid M C limit id r.trace := by
  rw [serve, Reactor.start] at h
  cases ha : runActs M C limit id H.start.2 [] with
  | ok t =>
    rw [ha] at h
    replace h : Reactor.run M C limit id H es ⟨H.start.1, t⟩ = .ok r := h
    exact paid_run hN h hs (runActs_paid hN ha (hs.mono (run_prefix h)) rfl).1
  | _ => rw [ha] at h; cases h

/-! ## The handler does what its callbacks say -/

theorem due_notCall : ∀ (last : Event) (t : List Entry),
    due M C limit id last (t.filter Entry.notCall) = due M C limit id last t
  | _, [] => rfl
  | last, l :: t => by
    cases l with
    | event e => exact due_notCall e t
    | act a => exact congrArg (dueAct M C limit id a :: ·) (due_notCall last t)
    | call c => exact due_notCall last t
    | answer h =>
      cases h with
      | true => exact due_notCall last t
      | false => exact congrArg (dueEvent last ++ ·) (due_notCall last t)

theorem calls_notCall (cs : List Call) : (cs.map Entry.call).filter Entry.notCall = [] := by
  induction cs with
  | nil => rfl
  | cons c cs ih => exact ih

theorem runActs_script : ∀ {as : List Act} {t t' : List Entry}, runActs M C limit id as t = .ok t' →
    t'.filter Entry.notCall = t.filter Entry.notCall ++ as.map .act
  | [], t, t', h => by cases h; simp
  | a :: as, t, t', h => by
    rw [runActs] at h
    cases hc : a.calls M C limit id with
    | ok cs =>
      rw [hc] at h
      rw [runActs_script h, List.filter_append]
      show (_ ++ Entry.act a :: (cs.map Entry.call).filter Entry.notCall) ++ _ = _
      rw [calls_notCall]
      simp
    | _ => rw [hc] at h; cases h

theorem plain_script {r r' : Reactor σ} {f : σ → σ × List Act} (h : r.plain M C limit id f = .ok r') :
    r'.handler = (f r.handler).1 ∧
      r'.trace.filter Entry.notCall = r.trace.filter Entry.notCall ++ (f r.handler).2.map .act := by
  rw [Reactor.plain] at h
  cases ha : runActs M C limit id (f r.handler).2 r.trace with
  | ok t =>
    rw [ha] at h
    cases h
    exact ⟨rfl, runActs_script ha⟩
  | _ => rw [ha] at h; cases h

theorem asked_script {r r' : Reactor σ} {f : Option (σ → σ × List Act × Bool)} {st : Status}
    (h : r.asked M C limit id f st = .ok r') :
    r'.handler = (optional f r.handler).1 ∧ r'.trace.filter Entry.notCall = r.trace.filter Entry.notCall ++
      ((optional f r.handler).2.1.map .act ++ [.answer (optional f r.handler).2.2]) := by
  cases f with
  | none => cases h; exact ⟨rfl, by rw [List.filter_append]; rfl⟩
  | some f =>
    replace h : (do
      let t ← runActs M C limit id (f r.handler).2.1 r.trace
      if (f r.handler).2.2 then .ok ⟨(f r.handler).1, t ++ [.answer true]⟩
      else .ok ⟨(f r.handler).1, t ++ [.answer false, .call (.finish st)]⟩ : Res (Reactor σ)) = .ok r' := h
    show _ = (f r.handler).1 ∧ _ = _ ++ ((f r.handler).2.1.map Entry.act ++ [Entry.answer (f r.handler).2.2])
    cases ha : runActs M C limit id (f r.handler).2.1 r.trace with
    | ok t =>
      rw [ha] at h
      replace h : (if (f r.handler).2.2 then .ok ⟨(f r.handler).1, t ++ [.answer true]⟩
        else .ok ⟨(f r.handler).1, t ++ [.answer false, .call (.finish st)]⟩ : Res (Reactor σ)) = .ok r' := h
      have hs := runActs_script ha
      cases hb : (f r.handler).2.2 with
      | true =>
        rw [hb] at h; cases h
        refine ⟨rfl, ?_⟩
        show List.filter _ (t ++ _) = _
        rw [List.filter_append, hs, List.append_assoc]; rfl
      | false =>
        rw [hb] at h; cases h
        refine ⟨rfl, ?_⟩
        show List.filter _ (t ++ _) = _
        rw [List.filter_append, hs, List.append_assoc]; rfl
    | _ => rw [ha] at h; cases h

theorem event_script {r r' : Reactor σ} {e : Event} (h : r.event M C limit id H e = .ok r') :
    r'.handler = (respond H r.handler e).1 ∧ r'.trace.filter Entry.notCall = r.trace.filter Entry.notCall ++
      (.event e :: (respond H r.handler e).2.1.map .act ++ (respond H r.handler e).2.2.toList.map .answer) := by
  have he : (r.trace ++ [Entry.event e]).filter Entry.notCall = r.trace.filter Entry.notCall ++ [.event e] := by
    rw [List.filter_append]; rfl
  have pl : ∀ {f r2}, Reactor.plain M C limit id (⟨r.handler, r.trace ++ [.event e]⟩ : Reactor σ) f = .ok r2 →
      r2.handler = (f r.handler).1 ∧ r2.trace.filter Entry.notCall = r.trace.filter Entry.notCall ++
        (.event e :: (f r.handler).2.map .act ++ []) := by
    intro f r2 h
    obtain ⟨h1, h2⟩ := plain_script h
    refine ⟨h1, ?_⟩
    rw [h2]; show (r.trace ++ [Entry.event e]).filter _ ++ _ = _
    rw [he]; simp
  have ak : ∀ {f st r2}, Reactor.asked M C limit id (⟨r.handler, r.trace ++ [.event e]⟩ : Reactor σ) f st = .ok r2 →
      r2.handler = (optional f r.handler).1 ∧ r2.trace.filter Entry.notCall = r.trace.filter Entry.notCall ++
        (.event e :: (optional f r.handler).2.1.map .act ++ [.answer (optional f r.handler).2.2]) := by
    intro f st r2 h
    obtain ⟨h1, h2⟩ := asked_script h
    refine ⟨h1, ?_⟩
    rw [h2]; show (r.trace ++ [Entry.event e]).filter _ ++ _ = _
    rw [he]; simp
  cases e with
  | readOk b => exact pl h
  | readEnd c l =>
    cases c with
    | true => exact ak h
    | false => exact ak h
  | writeOk => exact pl h
  | writeFail c => exact ak h
  | cancel => exact pl h
  | poke n => exact pl h
  | done => cases h; exact ⟨rfl, he⟩

theorem run_script : ∀ {es : List Event} {r r' : Reactor σ}, Reactor.run M C limit id H es r = .ok r' →
    r'.trace.filter Entry.notCall = r.trace.filter Entry.notCall ++ scriptFrom H r.handler es
  | [], r, r', h => by cases h; simp [scriptFrom]
  | e :: es, r, r', h => by
    rw [Reactor.run] at h
    cases he : r.event M C limit id H e with
    | ok r1 =>
      rw [he] at h
      obtain ⟨h1, h2⟩ := event_script he
      rw [run_script (r := r1) h, h2, h1, scriptFrom, List.append_assoc]
    | _ => rw [he] at h; cases h

theorem serve_script {es : List Event} {r : Reactor σ} (h : serve M C limit id H es = .ok r) :
    r.trace.filter Entry.notCall = script H es := by
  rw [serve, Reactor.start] at h
  cases ha : runActs M C limit id H.start.2 [] with
  | ok t =>
    rw [ha] at h
    replace h : Reactor.run M C limit id H es ⟨H.start.1, t⟩ = .ok r := h
    rw [run_script h]
    show t.filter _ ++ _ = _
    rw [runActs_script ha]; rfl
  | _ => rw [ha] at h; cases h

theorem replies_notCall (t : List Entry) : replies (t.filter Entry.notCall) = replies t := by
  induction t with
  | nil => rfl
  | cons l t ih =>
    cases l with
    | act a => cases a <;> first | exact ih | exact congrArg (_ :: ·) ih
    | _ => exact ih

/-! ## Runs do not fail -/

theorem put_total (hN : numbersOk C) {m : Msg} (hl : (Props.wire C limit id m).length < 2 ^ 64) :
    ∃ st b, grpcPut C limit none id m [] = .ok (st, b) := by
  obtain ⟨h1, h2⟩ := Props.C50_grpc C hN limit id m none [] hl
  obtain ⟨e, bytes, hw⟩ := Props.C08_no_ub C hN limit id m true [] hl
  rw [grpcPut]
  cases e with
  | none => rw [h1 [] bytes hw]; exact ⟨_, _, rfl⟩
  | some e =>
    obtain ⟨e', h2⟩ := h2 [] bytes e hw
    rw [h2]; exact ⟨_, _, rfl⟩

theorem calls_total (hN : numbersOk C) {a : Act} (hs : Sized C limit id [.act a]) :
    ∃ cs, a.calls M C limit id = .ok cs := by
  cases a with
  | startRead => exact ⟨_, rfl⟩
  | writeRaw b => exact ⟨_, rfl⟩
  | finish s => exact ⟨_, rfl⟩
  | finishRaw b s => exact ⟨_, rfl⟩
  | write m =>
    obtain ⟨st, b, h⟩ := put_total hN (hs m (by simp [replies]))
    rw [Act.calls, h]
    show ∃ cs, (if st = .ok then _ else _) = Res.ok cs
    by_cases hst : st = .ok
    · rw [if_pos hst]; exact ⟨_, rfl⟩
    · rw [if_neg hst]; exact ⟨_, rfl⟩
  | finishReply m s =>
    obtain ⟨st, b, h⟩ := put_total hN (hs m (by simp [replies]))
    rw [Act.calls, h]
    show ∃ cs, (if st = .ok then _ else _) = Res.ok cs
    by_cases hst : st = .ok
    · rw [if_pos hst]; exact ⟨_, rfl⟩
    · rw [if_neg hst]; exact ⟨_, rfl⟩

theorem runActs_total (hN : numbersOk C) : ∀ {as : List Act} (t : List Entry),
    (∀ a ∈ as, Sized C limit id [.act a]) → ∃ t', runActs M C limit id as t = .ok t'
  | [], t, _ => ⟨t, rfl⟩
  | a :: as, t, h => by
    obtain ⟨cs, hc⟩ := calls_total (M := M) hN (h a (List.mem_cons_self))
    rw [runActs, hc]
    exact runActs_total hN _ (fun b hb => h b (List.mem_cons_of_mem _ hb))

theorem plain_total (hN : numbersOk C) (r : Reactor σ) {f : σ → σ × List Act}
    (h : ∀ s, ∀ a ∈ (f s).2, Sized C limit id [.act a]) : ∃ r', r.plain M C limit id f = .ok r' := by
  obtain ⟨t, ht⟩ := runActs_total (M := M) hN r.trace (h r.handler)
  rw [Reactor.plain, ht]
  exact ⟨_, rfl⟩

theorem asked_total (hN : numbersOk C) (r : Reactor σ) {f : Option (σ → σ × List Act × Bool)} {st : Status}
    (h : ∀ g, f = some g → ∀ s, ∀ a ∈ (g s).2.1, Sized C limit id [.act a]) :
    ∃ r', r.asked M C limit id f st = .ok r' := by
  cases f with
  | none => exact ⟨_, rfl⟩
  | some f =>
    obtain ⟨t, ht⟩ := runActs_total (M := M) hN r.trace (h f rfl r.handler)
    show ∃ r', (do
      let t ← runActs M C limit id (f r.handler).2.1 r.trace
      if (f r.handler).2.2 then .ok ⟨(f r.handler).1, t ++ [.answer true]⟩
      else .ok ⟨(f r.handler).1, t ++ [.answer false, .call (.finish st)]⟩ : Res (Reactor σ)) = .ok r'
    rw [ht]
    show ∃ r', (if (f r.handler).2.2 then .ok ⟨(f r.handler).1, t ++ [.answer true]⟩
      else .ok ⟨(f r.handler).1, t ++ [.answer false, .call (.finish st)]⟩ : Res (Reactor σ)) = .ok r'
    cases (f r.handler).2.2 <;> exact ⟨_, rfl⟩

theorem event_total (hN : numbersOk C) (hs : ∀ a, CanAsk H a → Sized C limit id [.act a]) (e : Event) (r : Reactor σ) :
    ∃ r', r.event M C limit id H e = .ok r' := by
  cases e with
  | readOk b => exact plain_total hN _ (fun s a ha => hs a (.readOk b s ha))
  | readEnd c l =>
    cases c with
    | true => exact asked_total hN _ (fun g hg s a ha => hs a (.readCancel g s hg ha))
    | false => exact asked_total hN _ (fun g hg s a ha => hs a (.readEof g s hg ha))
  | writeOk => exact plain_total hN _ (fun s a ha => hs a (.writeOk s ha))
  | writeFail c => exact asked_total hN _ (fun g hg s a ha => hs a (.writeError g s hg ha))
  | cancel => exact plain_total hN _ (fun s a ha => hs a (.cancel s ha))
  | poke n => exact plain_total hN _ (fun s a ha => hs a (.poke n s ha))
  | done => exact ⟨_, rfl⟩

theorem serve_total (hN : numbersOk C) (hs : ∀ a, CanAsk H a → Sized C limit id [.act a]) (es : List Event) :
    ∃ r, serve M C limit id H es = .ok r := by
  obtain ⟨t, ht⟩ := runActs_total (M := M) hN [] (fun a ha => hs a (.start ha))
  rw [serve, Reactor.start, ht]
  show ∃ r, Reactor.run M C limit id H es ⟨H.start.1, t⟩ = .ok r
  generalize (⟨H.start.1, t⟩ : Reactor σ) = r
  induction es generalizing r with
  | nil => exact ⟨_, rfl⟩
  | cons e es ih =>
    obtain ⟨r1, h1⟩ := event_total (M := M) hN hs e r
    rw [Reactor.run, h1]
    exact ih r1

end HppProto
