import Verif.Proofs.DirectSystemD
import Verif.Proofs.VerifierSeq
import Verif.Model.Sender
set_option autoImplicit false
/-
C106, C107, C108: connections for direct calls, client and server together (rrpc/client.go, rrpc/server.go:103-180, rrpc/gc.go, sender.go:43-87).
-/
namespace Resmix.Rrpc.DirectSystem
open Resmix.Merkle
variable {ζ μ ν ω : Type} {cfg : Config ζ μ}

/-! ### C106 -/

/-- C106: on a connection that is used properly, however goroutines and streams are scheduled, the client does not crash and the server's stream stays open; the
calls whose handlers were run are the first calls given to the send channel, in this order, each once, and each was run with the handler of its method, its
own id and its own arguments; and what a caller got is what the run for his own call gave. -/
theorem C106_own_result (es : List (Event ζ μ)) (s : State ζ μ) (h : GoodRun cfg init es s) :
    s.client.crashed = false ∧ s.ended = false ∧ s.runs.map Ran.call <+: s.entered ∧ s.entered.Nodup ∧ (∀ x ∈ s.runs, RunOf cfg s x) ∧
    ∀ (i : Nat) (c : DirectClient.Call Outcome) (r : DirectClient.Res Outcome), s.client.calls[i]? = some c → c.got = some r →
      ∃ x ∈ s.runs, x.call = i ∧ r = .response (outcomeOf x.result) := by
  obtain ⟨A, hi⟩ := (inv_init cfg).ran_all h
  refine ⟨hi.alive, hi.ended, ?_, hi.nodup, hi.runOk, ?_⟩
  · rw [hi.order, hi.ran]
    exact ⟨s.serving.toList.map Prod.fst ++ s.up.map Prod.fst ++ s.client.queue, by simp⟩
  · intro i c r hc hr
    by_cases hA : i ∈ A
    · obtain ⟨y, h1, h2, ⟨-, h3, -⟩ | ⟨h3, -⟩⟩ := hi.ans i c hc hA
      · rw [h3] at hr; cases hr
      · exact ⟨y, h1, h2, by rw [h3] at hr; injection hr with hr; exact hr.symm⟩
    · rw [(hi.wait i c hc hA).2.1] at hr; cases hr

/-- Results are the same if two runs are for the same call: a call is run at most once. -/
theorem C106_once (es : List (Event ζ μ)) (s : State ζ μ) (h : GoodRun cfg init es s) (x y : Ran ζ μ) (hx : x ∈ s.runs) (hy : y ∈ s.runs) (he : x.call = y.call) : x = y := by
  obtain ⟨-, -, h3, h4, -⟩ := C106_own_result es s h
  exact List.inj_on_of_nodup_map (h3.sublist.nodup h4) hx hy he

/-- C106: the steps a connection makes of its own are at most seven for every call. -/
theorem C106_bounded (es : List (Event ζ μ)) (s : State ζ μ) (h : GoodRun cfg init es s) : es.countP Event.Own ≤ 7 * es.countP Event.isCall := by
  have := (inv_init cfg).work_run h
  simp [work, init, DirectClient.init, dispWork] at this
  omega

/-- C106: if the streams can carry a message, then when nothing is left to do and all callers wait, every caller has the result of the one run for his call. -/
theorem C106_rest (es : List (Event ζ μ)) (s : State ζ μ) (h : GoodRun cfg init es s) (hw : 0 < cfg.window) (hr : AtRest cfg s)
    (hall : ∀ c ∈ s.client.calls, c.awaiting = true) :
    ∀ (i : Nat) (c : DirectClient.Call Outcome), s.client.calls[i]? = some c → ∃ x ∈ s.runs, x.call = i ∧ c.got = some (.response (outcomeOf x.result)) := by
  obtain ⟨A, hi⟩ := (inv_init cfg).ran_all h
  intro i c hc
  obtain ⟨hA, hg⟩ := hi.all_answered hw hr hall i c hc
  obtain ⟨y, h1, h2, ⟨-, h3, -⟩ | ⟨h3, -⟩⟩ := hi.ans i c hc hA
  · exact (hg h3).elim
  · exact ⟨y, h1, h2, h3⟩

/-- C106: from wherever a properly used connection is, it can come to rest by itself; if all callers wait, every one of them then has his result. -/
theorem C106_all_return (es : List (Event ζ μ)) (s : State ζ μ) (h : GoodRun cfg init es s) (hw : 0 < cfg.window) (hall : ∀ c ∈ s.client.calls, c.awaiting = true) :
    ∃ es' s', GoodRun cfg s es' s' ∧ (∀ e ∈ es', e.Own = true) ∧ AtRest cfg s' ∧ s'.client.calls.length = s.client.calls.length ∧
      ∀ (i : Nat) (c : DirectClient.Call Outcome), s'.client.calls[i]? = some c → ∃ x ∈ s'.runs, x.call = i ∧ c.got = some (.response (outcomeOf x.result)) := by
  obtain ⟨A, hi⟩ := (inv_init cfg).ran_all h
  obtain ⟨es', s', h1, h2, h3⟩ := hi.rest
  obtain ⟨h4, h5⟩ := own_clients h1 h2 hall
  exact ⟨es', s', h1, h2, h3, h5, C106_rest _ _ (h.append h1) hw h3 h4⟩

/-- What `VerifyAndDispatch` does with the caller's request is `reply` and then, if there are reply bytes, unpacking them (Model/Direct `directReply`). -/
theorem C106_reply (K : ReqCodec ν ω) (ver : Go Unit) (r : Request ν ω) (msg : DirectCallResponse) :
    directReply K ver r msg = match reply ver msg with
      | .error e => (r, .error e)
      | .ok none => (r, .ok ())
      | .ok (some b) => ((Request.unpack K { r with marshaledReply := some b }).1, liftGo (Request.unpack K { r with marshaledReply := some b }).2) := by
  obtain ⟨note, result⟩ := msg
  unfold directReply reply
  cases ver with
  | error e => rfl
  | ok u =>
    cases result with
    | rpcError st =>
      dsimp only
      cases hs : statusErr st <;> rfl
    | payload b => rfl
    | unset => rfl

/-- A connection, and an id that was used and may be used again: any two registered methods. -/
example (S : SigScheme) (H : HashFn) (cod : Codec) (ck sk : S.Sk) (svcs : Services ζ μ) (m m' : Str) (x x' : ζ × μ) (hm : svcs.get m = .ok x) (hm' : svcs.get m' = .ok x') :
    let cfg : Config ζ μ := ⟨S, H, cod, ck, sk, svcs, 1, 5⟩
    ∃ es s, GoodRun cfg init es s ∧ AtRest cfg s ∧ s.client.calls.length = 3 ∧ ∀ c ∈ s.client.calls, c.got ≠ none := by
  intro cfg
  have h1 : GoodRun cfg init [.call [1] 0 m [7], .await 0, .call [2] 0 m' [8], .await 1] _ :=
    .cons rfl ⟨by simp [init, DirectClient.init], x, hm⟩ <| .cons rfl trivial <| .cons rfl ⟨by simp [init, DirectClient.init], x', hm'⟩ <| .cons rfl trivial <| .nil _
  obtain ⟨es1, s1, r1, r2, r3, r4, r5⟩ := C106_all_return _ _ h1 Nat.one_pos (by simp [init, DirectClient.init])
  have hgot : ∀ c ∈ s1.client.calls, c.got ≠ none := by
    intro c hc
    obtain ⟨i, hi⟩ := List.getElem?_of_mem hc
    obtain ⟨y, -, -, hy⟩ := r5 i c hi
    rw [hy]; simp
  have haw : AllWait s1 := (own_clients r1 r2 (by simp [init, DirectClient.init, AllWait])).1
  have hal := (C106_own_result _ _ (h1.append r1)).1
  have hlen : s1.client.calls.length = 2 := r4
  obtain ⟨s2, hs2⟩ : ∃ s2, step cfg s1 (.call [1] 9 m [9]) = some s2 := by simp [step, DirectClient.step, hal]
  have hc2 : s2.client.calls = s1.client.calls ++ [{ uuid := [1], start := 9, closed := false, awaiting := false, got := none }] ∧ s2.client.crashed = false := by
    simp only [step, DirectClient.step, hal, Bool.false_eq_true, if_false, Option.some.injEq] at hs2
    subst hs2; exact ⟨rfl, rfl⟩
  obtain ⟨s3, hs3⟩ : ∃ s3, step cfg s2 (.await 2) = some s3 := by
    simp [step, local', DirectClient.step, hc2.2, hc2.1, hlen]
  have hc3 : s3.client.calls = s1.client.calls ++ [{ uuid := [1], start := 9, closed := false, awaiting := true, got := none }] := by
    simp only [step, local', DirectClient.step, hc2.2, hc2.1, Bool.false_eq_true, if_false] at hs3
    rw [List.getElem?_append_right (by omega)] at hs3
    simp [hlen] at hs3
    subst hs3
    simp [List.set_append, hlen]
  have h2 : GoodRun cfg s1 [.call [1] 9 m [9], .await 2] s3 := .cons hs2 ⟨fun c hc _ => hgot c hc, x, hm⟩ <| .cons hs3 trivial <| .nil _
  obtain ⟨es4, s4, t1, t2, t3, t4, t5⟩ := C106_all_return _ _ ((h1.append r1).append h2) Nat.one_pos (by
    intro c hc
    rw [hc3] at hc
    rcases List.mem_append.1 hc with hc | hc
    · exact haw c hc
    · simp at hc; subst hc; rfl)
  refine ⟨_, s4, ((h1.append r1).append h2).append t1, t3, by rw [t4, hc3]; simp [hlen], ?_⟩
  intro c hc
  obtain ⟨i, hi⟩ := List.getElem?_of_mem hc
  obtain ⟨y, -, -, hy⟩ := t5 i c hi
  rw [hy]; simp

/-! ### C107 -/

/-- C107 fails: if a call was sent and its response has not arrived yet, and another call with the same id is made, then the first one never returns: whatever
happens on the connection, whatever the cleanup does, its caller gets nothing. -/
theorem C107_overtaken_refuted (es : List (Event ζ μ)) (s : State ζ μ) (h : GoodRun cfg init es s) (i : Nat) (c : DirectClient.Call Outcome)
    (hc : s.client.calls[i]? = some c) (hsent : i ∈ s.entered) (hq : i ∉ s.client.queue) (hw : s.client.waiting.lookup c.uuid = some i)
    (now : Nat) (m : Str) (a : Bytes) (es' : List (Event ζ μ)) (s' : State ζ μ) (hr : Run cfg s (.call c.uuid now m a :: es') s') :
    ∃ c', s'.client.calls[i]? = some c' ∧ c'.got = none := by
  obtain ⟨A, hi⟩ := (inv_init cfg).ran_all h
  cases hr with
  | cons hst t =>
    obtain ⟨c', h1, h2, -⟩ := ((hi.forget hc hsent hq hw hst).run t).lt
    exact ⟨c', h1, h2⟩

/-- C107 fails, in terms of rounds: the request a server's sender issues in one round for the output of a mix and the one it issues in any other round for an output of the same
mix to the same host have the same id; so if the second is issued while the first is on its way, the first never returns, and the sender of its round sends
nothing more. -/
theorem C107_rounds_refuted (sd : Sender.MessageSender) (r' : Nat) (out out' : Mixer.MixOutput) (hls : out'.logicalSender = out.logicalSender) (host : Str)
    (order order' : GoMap Str (List Bytes)) (es : List (Event ζ μ)) (s : State ζ μ) (h : GoodRun cfg init es s) (i : Nat) (c : DirectClient.Call Outcome)
    (hc : s.client.calls[i]? = some c) (huuid : c.uuid = (Sender.createRequest sd out host order).uuid) (hsent : i ∈ s.entered) (hq : i ∉ s.client.queue)
    (hw : s.client.waiting.lookup c.uuid = some i) (now : Nat) (a : Bytes) (es' : List (Event ζ μ)) (s' : State ζ μ)
    (hr : Run cfg s (.call (Sender.createRequest { sd with round := r' } out' host order').uuid now
      (Sender.createRequest { sd with round := r' } out' host order').method a :: es') s') :
    ∃ c', s'.client.calls[i]? = some c' ∧ c'.got = none := by
  have he : (Sender.createRequest { sd with round := r' } out' host order').uuid = c.uuid := by
    rw [huuid]; simp only [Sender.createRequest, hls]
  rw [he] at hr
  exact C107_overtaken_refuted es s h i c hc hsent hq hw now _ a es' s' hr

/-- Two rounds, from the start: the first round's request is made, sent and waited for; the second round's is made. Every continuation leaves the first without a
result. -/
theorem C107_from_start_refuted (hw : 0 < cfg.window) (x : ζ × μ) (hm : cfg.svcs.get Sender.addMessagesMethod = .ok x) (sd : Sender.MessageSender) (r' : Nat) (out out' : Mixer.MixOutput)
    (hls : out'.logicalSender = out.logicalSender) (host : Str) (order order' : GoMap Str (List Bytes)) (a a' : Bytes) :
    ∃ s1, Run cfg init [.call (Sender.createRequest sd out host order).uuid 0 Sender.addMessagesMethod a, .enqueue 0, .await 0, .send,
        .call (Sender.createRequest { sd with round := r' } out' host order').uuid 0 Sender.addMessagesMethod a'] s1 ∧
      ∀ es s', Run cfg s1 es s' → ∃ c', s'.client.calls[0]? = some c' ∧ c'.awaiting = true ∧ c'.got = none := by
  have he : (Sender.createRequest { sd with round := r' } out' host order').uuid = (Sender.createRequest sd out host order).uuid := by
    simp only [Sender.createRequest, hls]
  rw [he]
  generalize (Sender.createRequest sd out host order).uuid = u
  obtain ⟨q, hq, -⟩ := exchange cfg u ⟨Sender.addMessagesMethod, a⟩
  have hsend : step cfg { (init : State ζ μ) with client := { (DirectClient.init : DirectClient.State Outcome) with
        calls := [⟨u, 0, false, true, none⟩], waiting := GoMap.insert [] u 0, queue := [0] }, data := [⟨Sender.addMessagesMethod, a⟩], entered := [0] } .send = some
      { (init : State ζ μ) with client := { (DirectClient.init : DirectClient.State Outcome) with
        calls := [⟨u, 0, false, true, none⟩], waiting := GoMap.insert [] u 0, queue := [] }, data := [⟨Sender.addMessagesMethod, a⟩], entered := [0], up := [(0, q)] } := by
    simp [step, init, DirectClient.init, hq, hw, DirectClient.step]
  have hg : GoodRun cfg init [.call u 0 Sender.addMessagesMethod a, .enqueue 0, .await 0, .send] _ :=
    .cons rfl ⟨by simp [init, DirectClient.init], x, hm⟩ <| .cons rfl trivial <| .cons rfl trivial <| .cons hsend trivial <| .nil _
  obtain ⟨A, hi⟩ := (inv_init cfg).ran_all hg
  have hst : ∃ s1, step cfg { (init : State ζ μ) with client := { (DirectClient.init : DirectClient.State Outcome) with
        calls := [⟨u, 0, false, true, none⟩], waiting := GoMap.insert [] u 0, queue := [] }, data := [⟨Sender.addMessagesMethod, a⟩], entered := [0], up := [(0, q)] }
        (.call u 0 Sender.addMessagesMethod a') = some s1 ∧ ∃ c, s1.client.calls[0]? = some c ∧ c.awaiting = true := ⟨_, rfl, _, rfl, rfl⟩
  obtain ⟨s1, hst, haw⟩ := hst
  have hrun : Run cfg init [.call u 0 Sender.addMessagesMethod a, .enqueue 0, .await 0, .send, .call u 0 Sender.addMessagesMethod a'] s1 :=
    .cons rfl <| .cons rfl <| .cons rfl <| .cons hsend <| .cons hst <| .nil _
  refine ⟨s1, hrun, ?_⟩
  intro es s' hr
  have hf := (hi.forget (i := 0) (c := ⟨u, 0, false, true, none⟩) rfl (by simp) (by simp) (GoMap.lookup_insert_self _ _ _) hst)
  have hwait : ∃ c, s'.client.calls[0]? = some c ∧ c.awaiting = true := by
    clear hf hrun hst hi hg hsend hq he
    induction hr with
    | nil => exact haw
    | cons hst _ ih => exact ih (awaiting_kept hst haw)
  obtain ⟨c', h1, h2, -⟩ := (hf.run hr).lt
  obtain ⟨c'', h3, h4⟩ := hwait
  rw [h1] at h3; injection h3 with h3; subst h3
  exact ⟨c', h1, h4, h2⟩

/-! ### C108 -/

/-- C108 fails: when a request for a method that is not registered is served, the server's handler returns; from then on, whatever happens, no handler is run for any
call of this connection. -/
theorem C108_unknown_method_refuted (s : State ζ μ) (i : Nat) (q : DirectCallRequest) (hs : s.serving = some (i, q)) (f : Fail) (hm : cfg.svcs.get q.method = .error f)
    (h : Handler ζ μ) (cache : Cache) (es : List (Event ζ μ)) (s' : State ζ μ) (hr : Run cfg s (.serve h cache :: es) s') :
    s'.ended = true ∧ s'.runs = s.runs := by
  cases hr with
  | cons hst t =>
    simp only [step, hs, serveOne, directStep, hm] at hst
    split at hst
    on_goal 2 => cases hst
    injection hst with hst
    have := Ended.run (runs := s.runs) ⟨by rw [← hst]; rfl, by rw [← hst], by rw [← hst]; simp⟩ t
    exact ⟨this.1, this.3⟩

/-- The same for a call whose handler returns a value that cannot be encoded: its handler is the last one that is run. -/
theorem C108_unencodable_refuted (s : State ζ μ) (i : Nat) (q : DirectCallRequest) (hs : s.serving = some (i, q)) (srv : ζ) (m : μ) (n : ExchangeNote) (cache : Cache)
    (hadm : Admissible cfg.svcs (cfg.S.pub cfg.ck) q (judge cfg cache q) srv m n) (h : Handler ζ μ) (msg : Str) (hbad : h srv m n.calluuid q.payload = .ok (.error msg))
    (es : List (Event ζ μ)) (s' : State ζ μ) (hr : Run cfg s (.serve h cache :: es) s') :
    s'.ended = true ∧ s'.runs = s.runs ++ [⟨i, (srv, m, n.calluuid, q.payload), .ok (.error msg)⟩] := by
  cases hr with
  | cons hst t =>
    simp only [step, hs, serveOne, directStep, hadm.registered, hadm.note, hadm.sender, hadm.cert, hbad, intoDirectCallResponse, ne_eq, not_true_eq_false, if_false] at hst
    split at hst
    on_goal 2 => cases hst
    injection hst with hst
    have := Ended.run (runs := s.runs ++ [⟨i, (srv, m, n.calluuid, q.payload), .ok (.error msg)⟩]) ⟨by rw [← hst]; rfl, by rw [← hst], by rw [← hst]; simp [hbad]⟩ t
    exact ⟨this.1, this.3⟩

/-- From the start: somebody calls a method that is not registered, somebody else one that is. Every continuation leaves the second call without a response, and no
call made later gets one. -/
theorem C108_from_start_refuted (hw : 1 < cfg.window) (m m' : Str) (f : Fail) (hm : cfg.svcs.get m = .error f) (u v : Str) (a b : Bytes) (h : Handler ζ μ) (cache : Cache) :
    ∃ s1, Run cfg init [.call u 0 m a, .call v 0 m' b, .enqueue 0, .enqueue 1, .await 0, .await 1, .send, .send, .recv, .serve h cache] s1 ∧
      ∀ es s', Run cfg s1 es s' → s'.runs = [] ∧ ∀ (i : Nat) (c : DirectClient.Call Outcome) (x : Outcome), s'.client.calls[i]? = some c → c.got ≠ some (.response x) := by
  obtain ⟨q, hq, -⟩ := exchange cfg u ⟨m, a⟩
  obtain ⟨q', hq', -⟩ := exchange cfg v ⟨m', b⟩
  have hqm : q.method = m := by
    have := hq
    simp only [requestOf, directRequest, Request.new] at this
    split at this
    · cases this
    · injection this with this; rw [← this]
  have h0 : 0 < cfg.window := by omega
  refine ⟨{ (init : State ζ μ) with
      client := { (DirectClient.init : DirectClient.State Outcome) with
        calls := [⟨u, 0, false, true, none⟩, ⟨v, 0, false, true, none⟩], waiting := GoMap.insert (GoMap.insert [] u 0) v 1 }
      data := [⟨m, a⟩, ⟨m', b⟩]
      entered := [0, 1]
      up := [(1, q')]
      ended := true }, ?_, ?_⟩
  · refine .cons rfl <| .cons rfl <| .cons rfl <| .cons rfl <| .cons rfl <| .cons rfl <| ?_
    refine Run.cons (s' := { (init : State ζ μ) with
      client := { (DirectClient.init : DirectClient.State Outcome) with
        calls := [⟨u, 0, false, true, none⟩, ⟨v, 0, false, true, none⟩], waiting := GoMap.insert (GoMap.insert [] u 0) v 1, queue := [1] }
      data := [⟨m, a⟩, ⟨m', b⟩]
      entered := [0, 1]
      up := [(0, q)] }) ?_ ?_
    · simp [step, init, DirectClient.init, hq, h0, DirectClient.step]
    refine Run.cons (s' := { (init : State ζ μ) with
      client := { (DirectClient.init : DirectClient.State Outcome) with
        calls := [⟨u, 0, false, true, none⟩, ⟨v, 0, false, true, none⟩], waiting := GoMap.insert (GoMap.insert [] u 0) v 1 }
      data := [⟨m, a⟩, ⟨m', b⟩]
      entered := [0, 1]
      up := [(0, q), (1, q')] }) ?_ ?_
    · simp [step, init, DirectClient.init, hq', hw, DirectClient.step]
    refine .cons rfl <| Run.cons ?_ <| .nil _
    simp [step, init, DirectClient.init, serveOne, directStep, hqm, hm, h0]
  · intro es s' hr
    have hd : Dead s' [] [] := by
      refine Dead.run ⟨rfl, rfl, rfl, by simp [DirectClient.init], rfl, ?_⟩ hr
      intro i c x hc hx
      dsimp only at hc
      match i, hc with
      | 0, hc => injection hc with hc; subst hc; cases hx
      | 1, hc => injection hc with hc; subst hc; cases hx
    exact ⟨hd.runs, fun i c x hc hx => by simpa using hd.resp i c x hc hx⟩

/-- C108, partial: what a handler returns, an error with any code included, harms nobody: with handlers that only fail, all callers of registered methods get
the status of their own run. -/
theorem C108_handler_errors_partial (es : List (Event ζ μ)) (s : State ζ μ) (h : GoodRun cfg init es s) (hw : 0 < cfg.window) (hall : ∀ c ∈ s.client.calls, c.awaiting = true)
    (hr : AtRest cfg s) (herr : ∀ x ∈ s.runs, ∃ e, x.result = .error e) :
    s.ended = false ∧ ∀ (i : Nat) (c : DirectClient.Call Outcome), s.client.calls[i]? = some c →
      ∃ x ∈ s.runs, x.call = i ∧ ∃ e, x.result = .error e ∧ c.got = some (.response (match statusErr (errToRpcErr e) with | .error y => .error y | .ok () => .ok none)) := by
  refine ⟨(C106_own_result es s h).2.1, ?_⟩
  intro i c hc
  obtain ⟨x, h1, h2, h3⟩ := C106_rest es s h hw hr hall i c hc
  obtain ⟨e, he⟩ := herr x h1
  refine ⟨x, h1, h2, e, he, ?_⟩
  rw [h3, he]
  rfl

/-- The handlers run stay recorded. -/
theorem runs_kept {s s' : State ζ μ} {es : List (Event ζ μ)} (h : GoodRun cfg s es s') : s.runs <+: s'.runs := by
  induction h with
  | nil => exact List.prefix_refl _
  | @cons s s1 _ e _ hst hg _ ih =>
    refine List.IsPrefix.trans ?_ ih
    cases e <;> simp only [step, local'] at hst <;> repeat' split at hst
    all_goals first
      | (injection hst with hst; subst hst; exact List.prefix_append _ _)
      | (injection hst with hst; subst hst; exact List.prefix_refl _)
      | cases hst

/-- The hypotheses are met, whatever error the handler returns: one call, one run, and nothing is left to do. -/
example (hw : 0 < cfg.window) (m : Str) (x : ζ × μ) (hm : cfg.svcs.get m = .ok x) (e : SvcErr) :
    ∃ es s, GoodRun cfg init es s ∧ (∀ c ∈ s.client.calls, c.awaiting = true) ∧ AtRest cfg s ∧ s.client.calls.length = 1 ∧ (∃ y ∈ s.runs, y.call = 0) ∧
      ∀ y ∈ s.runs, y.result = .error e := by
  obtain ⟨q, hq, hx⟩ := exchange cfg [1] ⟨m, [7]⟩
  obtain ⟨resp, n, h1, -, -, -⟩ := hx x.1 x.2 hm (fun _ _ _ _ => .error e) [] (by intro msg; simp)
  have hsend : step cfg { (init : State ζ μ) with client := { (DirectClient.init : DirectClient.State Outcome) with
        calls := [⟨[1], 0, false, true, none⟩], waiting := GoMap.insert [] [1] 0, queue := [0] }, data := [⟨m, [7]⟩], entered := [0] } .send = some
      { (init : State ζ μ) with client := { (DirectClient.init : DirectClient.State Outcome) with
        calls := [⟨[1], 0, false, true, none⟩], waiting := GoMap.insert [] [1] 0, queue := [] }, data := [⟨m, [7]⟩], entered := [0], up := [(0, q)] } := by
    simp [step, init, DirectClient.init, hq, hw, DirectClient.step]
  have hserve : ∃ s1, step cfg { (init : State ζ μ) with client := { (DirectClient.init : DirectClient.State Outcome) with
        calls := [⟨[1], 0, false, true, none⟩], waiting := GoMap.insert [] [1] 0, queue := [] }, data := [⟨m, [7]⟩], entered := [0], serving := some (0, q) }
        (.serve (fun _ _ _ _ => .error e) []) = some s1 ∧ s1.runs = [⟨0, (x.1, x.2, [1], [7]), .error e⟩] ∧ s1.client.calls = [⟨[1], 0, false, true, none⟩] := by
    simp [step, init, hw, h1]
  obtain ⟨s1, g1, g2, g3⟩ := hserve
  have hg : GoodRun cfg init [.call [1] 0 m [7], .enqueue 0, .await 0, .send, .recv, .serve (fun _ _ _ _ => .error e) []] s1 :=
    .cons rfl ⟨by simp [init, DirectClient.init], x, hm⟩ <| .cons rfl trivial <| .cons rfl trivial <| .cons hsend trivial <| .cons rfl trivial <|
      .cons g1 (by intro srv m u a msg; simp) <| .nil _
  have haw : ∀ c ∈ s1.client.calls, c.awaiting = true := by rw [g3]; simp
  obtain ⟨es2, s2, r1, r2, r3, r4, r5⟩ := C106_all_return _ _ hg hw haw
  have hone : s2.client.calls.length = 1 := by rw [r4, g3]; rfl
  have hin : (⟨0, (x.1, x.2, [1], [7]), .error e⟩ : Ran ζ μ) ∈ s2.runs := (runs_kept r1).subset (by rw [g2]; simp)
  have hfull := hg.append r1
  refine ⟨_, s2, hfull, (own_clients r1 r2 haw).1, r3, hone, ⟨_, hin, rfl⟩, ?_⟩
  intro y hy
  have hy0 : y.call = 0 := by
    obtain ⟨c, d, hc, -⟩ := (C106_own_result _ _ hfull).2.2.2.2.1 y hy
    have := (List.getElem?_eq_some_iff.mp hc).1
    omega
  rw [C106_once _ _ hfull y _ hy hin hy0]

end Resmix.Rrpc.DirectSystem
