import Verif.Model.Direct
import Verif.Props.Sign
import Verif.Props.Services
import Verif.Props.Request
set_option autoImplicit false
/-
C57, C58, C82: direct calls.
-/
namespace Resmix.Rrpc
open Resmix.Merkle
variable {ζ μ ν ω : Type}

/-! ### C58 -/

/-- The request asks for a registered method (server object `srv`, handler `m`), has a note `n` whose sender is `pk`, and the verifier accepted the
note's certificate under that key. -/
structure Admissible (svcs : Services ζ μ) (pk : Bytes) (q : DirectCallRequest) (ver : Go Unit) (srv : ζ) (m : μ) (n : ExchangeNote) : Prop where
  registered : svcs.get q.method = .ok (srv, m)
  note : q.note = some n
  sender : n.senderID = pk
  cert : ver = .ok ()

theorem signReceiverNote_ok (S : SigScheme) (H : HashFn) (cod : Codec) (sk : S.Sk) (n : ExchangeNote) : ∃ n', signReceiverNote S H cod sk n = .ok n' := by
  obtain ⟨h', h1, -⟩ := merkleSign_ok S H cod sk [.receiverNote 0] (allocNote n) (by simp)
  exact ⟨h'.note 0, by simp [signReceiverNote, h1, bind, Except.bind]⟩

theorem directStep_ran (S : SigScheme) (H : HashFn) (cod : Codec) (sk : S.Sk) (svcs : Services ζ μ) (handler : Handler ζ μ) (pk : Bytes) (e : DirectEv) :
    (∃ q ver f srv m n, e = .request q ver f ∧ Admissible svcs pk q ver srv m n ∧
      (directStep S H cod sk svcs handler pk e).1 = [(srv, m, n.calluuid, q.payload)]) ∨
    ((∀ q ver f, e = .request q ver f → ¬ ∃ srv m n, Admissible svcs pk q ver srv m n) ∧
      (directStep S H cod sk svcs handler pk e).1 = [] ∧ (directStep S H cod sk svcs handler pk e).2.1 = [] ∧ ∃ f, (directStep S H cod sk svcs handler pk e).2.2 = some f) := by
  cases e with
  | recvErr => exact .inr ⟨by simp, rfl, rfl, _, rfl⟩
  | request q ver f =>
    simp only [directStep]
    cases hg : svcs.get q.method with
    | error e =>
      refine .inr ⟨?_, rfl, rfl, _, rfl⟩
      rintro q' ver' f' h ⟨srv, m, n, ha⟩
      injection h with h1 h2 h3; subst h1
      have := ha.registered; rw [hg] at this; cases this
    | ok sm =>
      obtain ⟨srv, m⟩ := sm
      simp only
      cases hn : q.note with
      | none =>
        refine .inr ⟨?_, rfl, rfl, _, rfl⟩
        rintro q' ver' f' h ⟨srv, m, n, ha⟩
        injection h with h1 h2 h3; subst h1
        have := ha.note; rw [hn] at this; cases this
      | some n =>
        simp only
        by_cases hpk : pk = n.senderID
        · rw [if_neg (by simpa using hpk)]
          cases ver with
          | error x =>
            have hno : ∀ q' ver' f', DirectEv.request q (.error x) f = .request q' ver' f' → ¬ ∃ srv m n, Admissible svcs pk q' ver' srv m n := by
              rintro q' ver' f' h ⟨srv, m, n, ha⟩
              injection h with h1 h2 h3; subst h2
              have := ha.cert; cases this
            cases x with
            | panic => exact .inr ⟨hno, rfl, rfl, _, rfl⟩
            | err c msg => exact .inr ⟨hno, rfl, rfl, _, rfl⟩
            | hang => exact .inr ⟨hno, rfl, rfl, _, rfl⟩
          | ok u =>
            refine .inl ⟨q, .ok u, f, srv, m, n, rfl, ⟨hg, hn, hpk.symm, rfl⟩, ?_⟩
            simp only
            cases intoDirectCallResponse (handler srv m n.calluuid q.payload) with
            | error _ => rfl
            | ok res =>
              simp only
              obtain ⟨n', hs⟩ := signReceiverNote_ok S H cod sk n
              rw [hs]
              simp only
              split <;> rfl
        · rw [if_pos (by simpa using hpk)]
          refine .inr ⟨?_, rfl, rfl, _, rfl⟩
          rintro q' ver' f' h ⟨srv, m, n', ha⟩
          injection h with h1 h2 h3; subst h1
          have h1 := ha.note; rw [hn] at h1; injection h1 with h1; subst h1
          exact hpk ha.sender.symm

/-- C58, safety. On the stream of any caller, whatever it sends and in whatever order: the handlers that run are those of an initial part of the
stream all of whose requests are admissible, one run per request, each with the handler registered for the method, the call id of the
note and the payload of the request; the key is the one registered for the address of the caller. -/
theorem C58_only_admissible (S : SigScheme) (H : HashFn) (cod : Codec) (sk : S.Sk) (svcs : Services ζ μ) (handler : Handler ζ μ) (net : Network) (caller : Option Str)
    (evs : List DirectEv) :
    (directCall S H cod sk svcs handler net caller evs).1 = [] ∨
    ∃ ip pk served rest, caller = some ip ∧ net.getPublicKey ip = .ok pk ∧ evs = served ++ rest ∧
      List.Forall₂ (fun e run => ∃ q ver f srv m n, e = DirectEv.request q ver f ∧ Admissible svcs pk q ver srv m n ∧ run = (srv, m, n.calluuid, q.payload))
        served (directCall S H cod sk svcs handler net caller evs).1 := by
  unfold directCall
  cases caller with
  | none => exact .inl rfl
  | some ip =>
    simp only
    cases hk : net.getPublicKey ip with
    | error e => exact .inl rfl
    | ok pk =>
      simp only
      suffices ∀ evs, ∃ served rest, evs = served ++ rest ∧
        List.Forall₂ (fun e run => ∃ q ver f srv m n, e = DirectEv.request q ver f ∧ Admissible svcs pk q ver srv m n ∧ run = (srv, m, n.calluuid, q.payload))
          served (directLoop S H cod sk svcs handler pk evs).1 by
        obtain ⟨served, rest, h1, h2⟩ := this evs
        exact .inr ⟨ip, pk, served, rest, rfl, hk, h1, h2⟩
      intro evs
      induction evs with
      | nil => exact ⟨[], [], rfl, .nil⟩
      | cons e es ih =>
        rw [directLoop]
        rcases directStep_ran S H cod sk svcs handler pk e with ⟨q, ver, f, srv, m, n, he, ha, hr⟩ | ⟨-, h1, -, fin, h3⟩
        · rcases hst : directStep S H cod sk svcs handler pk e with ⟨ran, sent, fin⟩
          rw [hst] at hr
          simp only at hr
          subst hr
          cases fin with
          | some fin =>
            exact ⟨[e], es, rfl, .cons ⟨q, ver, f, srv, m, n, he, ha, rfl⟩ .nil⟩
          | none =>
            obtain ⟨served, rest, i1, i2⟩ := ih
            exact ⟨e :: served, rest, by rw [i1]; rfl, .cons ⟨q, ver, f, srv, m, n, he, ha, rfl⟩ i2⟩
        · rcases hst : directStep S H cod sk svcs handler pk e with ⟨ran, sent, fin'⟩
          rw [hst] at h1 h3
          simp only at h1 h3
          subst h1 h3
          exact ⟨[], e :: es, rfl, .nil⟩

/-- The request is served: it is admissible, the codec can encode what the handler returns, and the response can be sent. -/
def Served (svcs : Services ζ μ) (handler : Handler ζ μ) (pk : Bytes) (e : DirectEv) : Prop :=
  ∃ q ver srv m n, e = .request q ver false ∧ Admissible svcs pk q ver srv m n ∧ ∀ msg, handler srv m n.calluuid q.payload ≠ .ok (.error msg)

theorem directStep_served (S : SigScheme) (H : HashFn) (cod : Codec) (sk : S.Sk) (svcs : Services ζ μ) (handler : Handler ζ μ) (pk : Bytes) (q : DirectCallRequest)
    (ver : Go Unit) (srv : ζ) (m : μ) (n : ExchangeNote) (ha : Admissible svcs pk q ver srv m n) (res : DirectResult)
    (hres : intoDirectCallResponse (handler srv m n.calluuid q.payload) = .ok res) (n' : ExchangeNote) (hn' : signReceiverNote S H cod sk n = .ok n') :
    directStep S H cod sk svcs handler pk (.request q ver false) = ([(srv, m, n.calluuid, q.payload)], [{ note := some n', result := res }], none) := by
  obtain ⟨h1, h2, h3, h4⟩ := ha
  subst h4
  simp only [directStep, h1, h2, h3, ne_eq, not_true_eq_false, if_false, hres, hn', Bool.false_eq_true]

theorem directLoop_served (S : SigScheme) (H : HashFn) (cod : Codec) (sk : S.Sk) (svcs : Services ζ μ) (handler : Handler ζ μ) (pk : Bytes) (good tail : List DirectEv)
    (hg : ∀ e ∈ good, Served svcs handler pk e) :
    ∃ ran sent, ran.length = good.length ∧ sent.length = good.length ∧
      directLoop S H cod sk svcs handler pk (good ++ tail) =
        (ran ++ (directLoop S H cod sk svcs handler pk tail).1, sent ++ (directLoop S H cod sk svcs handler pk tail).2.1, (directLoop S H cod sk svcs handler pk tail).2.2) := by
  induction good with
  | nil => exact ⟨[], [], rfl, rfl, rfl⟩
  | cons e good ih =>
    obtain ⟨ran, sent, h1, h2, h3⟩ := ih fun e he => hg e (List.mem_cons_of_mem _ he)
    obtain ⟨q, ver, srv, m, n, rfl, ha, hm⟩ := hg e List.mem_cons_self
    obtain ⟨n', hn'⟩ := signReceiverNote_ok S H cod sk n
    obtain ⟨res, hres⟩ : ∃ res, intoDirectCallResponse (handler srv m n.calluuid q.payload) = .ok res := by
      cases hh : handler srv m n.calluuid q.payload with
      | error e => exact ⟨_, rfl⟩
      | ok r =>
        cases r with
        | error msg => exact absurd hh (hm msg)
        | ok b => exact ⟨_, rfl⟩
    refine ⟨(srv, m, n.calluuid, q.payload) :: ran, { note := some n', result := res } :: sent, by simp [h1], by simp [h2], ?_⟩
    rw [List.cons_append, directLoop, directStep_served S H cod sk svcs handler pk q ver srv m n ha res hres n' hn']
    simp only [h3, List.cons_append, List.nil_append]

/-- C58, the whole of it. After any number of served requests the stream goes on, with one handler run and one response for each; the first event
that is not an admissible request ends the stream with an error, and nothing after it runs or is answered, whatever follows. -/
theorem C58_first_violation (S : SigScheme) (H : HashFn) (cod : Codec) (sk : S.Sk) (svcs : Services ζ μ) (handler : Handler ζ μ) (net : Network) (ip : Str) (pk : Bytes)
    (hpk : net.getPublicKey ip = .ok pk) (good : List DirectEv) (hg : ∀ e ∈ good, Served svcs handler pk e) :
    ∃ ran sent, ran.length = good.length ∧ sent.length = good.length ∧
      directCall S H cod sk svcs handler net (some ip) good = (ran, sent, none) ∧
      ∀ (bad : DirectEv) (rest : List DirectEv), (∀ q ver f, bad = .request q ver f → ¬ ∃ srv m n, Admissible svcs pk q ver srv m n) →
        ∃ e, directCall S H cod sk svcs handler net (some ip) (good ++ bad :: rest) = (ran, sent, some e) := by
  obtain ⟨ran, sent, h1, h2, h3⟩ := directLoop_served S H cod sk svcs handler pk good [] hg
  refine ⟨ran, sent, h1, h2, ?_, ?_⟩
  · rw [List.append_nil] at h3
    simp [directCall, hpk, h3, directLoop]
  · intro bad rest hbad
    obtain ⟨ran', sent', h1', h2', h3'⟩ := directLoop_served S H cod sk svcs handler pk good (bad :: rest) hg
    have hb : ∃ e, directLoop S H cod sk svcs handler pk (bad :: rest) = ([], [], some e) := by
      rcases directStep_ran S H cod sk svcs handler pk bad with ⟨q, ver, f, srv, m, n, he, ha, -⟩ | ⟨-, k1, k2, fin, k3⟩
      · exact absurd ⟨srv, m, n, ha⟩ (hbad q ver f he)
      · rcases hst : directStep S H cod sk svcs handler pk bad with ⟨a, b, c⟩
        rw [hst] at k1 k2 k3
        simp only at k1 k2 k3
        subst k1 k2 k3
        exact ⟨fin, by rw [directLoop, hst]⟩
    obtain ⟨e, hb⟩ := hb
    -- the first part is the same
    have hsame : ∀ tail, ∃ x : List (HandlerRun ζ μ) × List DirectCallResponse, x = (ran, sent) ∧
        directLoop S H cod sk svcs handler pk (good ++ tail) =
          (x.1 ++ (directLoop S H cod sk svcs handler pk tail).1, x.2 ++ (directLoop S H cod sk svcs handler pk tail).2.1, (directLoop S H cod sk svcs handler pk tail).2.2) := by
      intro tail
      have key : ∀ (good : List DirectEv), (∀ e ∈ good, Served svcs handler pk e) → ∀ tail,
          directLoop S H cod sk svcs handler pk (good ++ tail) =
          ((directLoop S H cod sk svcs handler pk good).1 ++ (directLoop S H cod sk svcs handler pk tail).1,
            (directLoop S H cod sk svcs handler pk good).2.1 ++ (directLoop S H cod sk svcs handler pk tail).2.1, (directLoop S H cod sk svcs handler pk tail).2.2) := by
        intro good
        induction good with
        | nil => intro _ tail; rfl
        | cons e good ih =>
          intro hg tail
          have ih := ih (fun e he => hg e (List.mem_cons_of_mem _ he)) tail
          obtain ⟨q, ver, srv, m, n, rfl, ha, hm⟩ := hg e List.mem_cons_self
          obtain ⟨n', hn'⟩ := signReceiverNote_ok S H cod sk n
          obtain ⟨res, hres⟩ : ∃ res, intoDirectCallResponse (handler srv m n.calluuid q.payload) = .ok res := by
            cases hh : handler srv m n.calluuid q.payload with
            | error e => exact ⟨_, rfl⟩
            | ok r =>
              cases r with
              | error msg => exact absurd hh (hm msg)
              | ok b => exact ⟨_, rfl⟩
          have hs := directStep_served S H cod sk svcs handler pk q ver srv m n ha res hres n' hn'
          rw [List.cons_append, directLoop, directLoop, hs]
          simp only [ih, List.append_assoc]
      refine ⟨(ran, sent), rfl, ?_⟩
      have h := key good hg tail
      rw [List.append_nil] at h3
      rw [h, h3]
      simp [directLoop]
    obtain ⟨x, hx, hl⟩ := hsame (bad :: rest)
    subst hx
    refine ⟨e, ?_⟩
    simp only [directCall, hpk, hl, hb, List.append_nil]

/-- C58: nothing runs for a caller without a registered address. -/
theorem C58_unknown_caller (S : SigScheme) (H : HashFn) (cod : Codec) (sk : S.Sk) (svcs : Services ζ μ) (handler : Handler ζ μ) (net : Network) (caller : Option Str)
    (h : ∀ ip, caller = some ip → ∀ pk, net.getPublicKey ip ≠ .ok pk) (evs : List DirectEv) :
    ∃ msg, directCall S H cod sk svcs handler net caller evs = ([], [], some (.err .unauthenticated msg)) := by
  unfold directCall
  cases caller with
  | none => exact ⟨_, rfl⟩
  | some ip =>
    simp only
    cases hk : net.getPublicKey ip with
    | error e => exact ⟨_, rfl⟩
    | ok pk => exact absurd hk (h ip rfl pk)

/-! ### C57 -/

/-- What the caller of a direct call is to see for what the handler did: an error with the handler's status (Unknown and the text for a plain error)
and an untouched reply, or a reply decoded from the handler's value. -/
def DirectOutcome (K : ReqCodec ν ω) (r : Request ν ω) : Except SvcErr Bytes → Request ν ω × Except CallErr Unit → Prop
  | .error (.plain msg), out => out = (r, .error (.status { code := 2, message := msg }))
  | .error (.status s), out => out = (r, .error (.status s))
  | .ok b, out => out.1.reply = (K.dec b r.reply).1 ∧ (out.2 = .ok () ↔ (K.dec b r.reply).2 = .ok ())

/-- C57. An honest client and an honest server, whatever their verifiers remember: the request the client sends for a packed request (not
cancelled, not used before) is admissible at the server, which runs the handler once and answers; the client reports exactly the handler's
outcome. The handler's error must have a status code other than OK, and its value must be encodable. -/
theorem C57_outcome (S : SigScheme) (H : HashFn) (cod : Codec) (ck sk : S.Sk) (svcs : Services ζ μ) (handler : Handler ζ μ) (net : Network) (ip : Str)
    (hpk : net.getPublicKey ip = .ok (S.pub ck)) (K : ReqCodec ν ω) (r : Request ν ω) (args : Bytes) (hpacked : r.marshaledArgs = some args)
    (hnew : r.isUnpacked = false) (hctx : r.cancelled = false) (srv : ζ) (m : μ) (hm : svcs.get r.method = .ok (srv, m)) (outcome : Except SvcErr Bytes)
    (hout : handler srv m r.uuid args = match outcome with | .error e => .error e | .ok b => .ok (.ok b))
    (hcode : ∀ s, outcome = .error (.status s) → s.code ≠ 0) :
    ∃ q n, directRequest S H cod ck (S.pub sk) r = .ok q ∧ q.note = some n ∧
      ∀ cache : Cache, ∃ resp n', resp.note = some n' ∧
        directCall S H cod sk svcs handler net (some ip) [.request q (verifySenderNote S H cod cache (S.pub ck) n).1 false] = ([(srv, m, r.uuid, args)], [resp], none) ∧
        ∀ cache' : Cache, DirectOutcome K r outcome (directReply K (verifyReceiverNote S H cod cache' (S.pub sk) n').1 r resp) := by
  obtain ⟨n1, n2, s1, s2, s3, s4, s5⟩ := C45_direct_call S H cod ck sk
    { senderID := S.pub ck, receiverID := S.pub sk, senderMerkleProof := none, receiverMerkleProof := none, calluuid := r.uuid } rfl rfl
  have hsid : n1.senderID = S.pub ck := (congrArg ExchangeNote.senderID s3 :)
  have huuid : n1.calluuid = r.uuid := (congrArg ExchangeNote.calluuid s3 :)
  refine ⟨{ method := r.method, payload := args, note := some n1 }, n1, by simp only [directRequest, s1, hpacked, Option.getD_some], rfl, fun cache => ?_⟩
  have hadm : Admissible svcs (S.pub ck) { method := r.method, payload := args, note := some n1 } (verifySenderNote S H cod cache (S.pub ck) n1).1 srv m n1 :=
    ⟨hm, rfl, hsid, (s5 cache).1⟩
  have main : ∀ res, intoDirectCallResponse (handler srv m n1.calluuid args) = .ok res →
      directCall S H cod sk svcs handler net (some ip) [.request { method := r.method, payload := args, note := some n1 } (verifySenderNote S H cod cache (S.pub ck) n1).1 false]
        = ([(srv, m, r.uuid, args)], [{ note := some n2, result := res }], none) := by
    intro res hres
    have := directStep_served S H cod sk svcs handler (S.pub ck) _ _ srv m n1 hadm res hres n2 s2
    simp only [directCall, hpk, directLoop, this, huuid, List.append_nil]
  rw [huuid, hout] at main
  cases outcome with
  | error e =>
    refine ⟨_, n2, rfl, main _ rfl, fun cache' => ?_⟩
    rw [(s5 cache').2]
    cases e with
    | plain msg => simp [DirectOutcome, directReply, errToRpcErr, statusErr]
    | status s => simp [DirectOutcome, directReply, errToRpcErr, statusErr, hcode s rfl]
  | ok b =>
    refine ⟨_, n2, rfl, main _ rfl, fun cache' => ?_⟩
    rw [(s5 cache').2]
    simp only [DirectOutcome, directReply, Request.unpack, hnew, hctx, Bool.false_eq_true, if_false, Option.getD_some]
    rcases hd : K.dec b r.reply with ⟨v, res⟩
    cases res with
    | error e => exact ⟨rfl, by simp [liftGo]⟩
    | ok u => exact ⟨rfl, by simp [liftGo]⟩

/-- C57: a response whose note does not verify gives an error and leaves the request as it is, whatever it contains. -/
theorem C57_unverified (K : ReqCodec ν ω) (e : Fail) (r : Request ν ω) (msg : DirectCallResponse) :
    ∃ err, directReply K (.error e) r msg = (r, .error err) := ⟨_, rfl⟩

/-! ### C82 -/

/-- C82 fails, for the request: whoever has one admissible request of a client (for example from an earlier call; the note may even have been made for
another server) can send the note with any registered method and any payload: the request is admissible, and its handler runs; and he can
send it any number of times. -/
theorem C82_request_refuted (S : SigScheme) (H : HashFn) (cod : Codec) (sk : S.Sk) (svcs : Services ζ μ) (handler : Handler ζ μ) (net : Network) (ip : Str) (pk : Bytes)
    (hpk : net.getPublicKey ip = .ok pk) (q : DirectCallRequest) (ver : Go Unit) (srv : ζ) (m : μ) (n : ExchangeNote) (ha : Admissible svcs pk q ver srv m n)
    (method payload : Bytes) (srv' : ζ) (m' : μ) (hm : svcs.get method = .ok (srv', m')) (b : Bytes) (hh : handler srv' m' n.calluuid payload = .ok (.ok b)) (k : Nat) :
    (directCall S H cod sk svcs handler net (some ip) (List.replicate k (.request { method := method, payload := payload, note := some n } ver false))).1 =
      List.replicate k (srv', m', n.calluuid, payload) := by
  obtain ⟨n', hn'⟩ := signReceiverNote_ok S H cod sk n
  have hst := directStep_served S H cod sk svcs handler pk { method := method, payload := payload, note := some n } ver srv' m' n ⟨hm, rfl, ha.sender, ha.cert⟩
    (.payload b) (by simp [intoDirectCallResponse, hh]) n' hn'
  simp only [directCall, hpk]
  induction k with
  | zero => rfl
  | succ k ih =>
    rw [List.replicate_succ, directLoop, hst]
    simp only [ih, List.replicate_succ, List.cons_append, List.nil_append]

/-- C82 fails, for the response: the note does not cover the payload. If a response is accepted, then so is every response with the same note and
any other payload, and the caller gets that reply. -/
theorem C82_response_refuted (K : ReqCodec ν ω) (r : Request ν ω) (hnew : r.isUnpacked = false) (hctx : r.cancelled = false) (note : Option ExchangeNote) (b b' : Bytes)
    (v : ω) (hv : K.dec b' r.reply = (v, .ok ())) (ver : Go Unit) (hacc : (directReply K ver r { note := note, result := .payload b }).2 = .ok ()) :
    (directReply K ver r { note := note, result := .payload b' }).1.reply = v ∧ (directReply K ver r { note := note, result := .payload b' }).2 = .ok () := by
  cases ver with
  | error e => simp [directReply] at hacc
  | ok u => simp [directReply, Request.unpack, hnew, hctx, hv, liftGo]

/-- C82, partial: only the client registered for the address can have its call id run: a request that is run carries a note whose sender is that client and
whose certificate the verifier accepted. -/
theorem C82_note_partial (S : SigScheme) (H : HashFn) (cod : Codec) (sk : S.Sk) (svcs : Services ζ μ) (handler : Handler ζ μ) (net : Network) (ip : Str) (pk : Bytes)
    (hpk : net.getPublicKey ip = .ok pk) (evs : List DirectEv) (run : HandlerRun ζ μ) (hrun : run ∈ (directCall S H cod sk svcs handler net (some ip) evs).1) :
    ∃ q f n, DirectEv.request q (.ok ()) f ∈ evs ∧ q.note = some n ∧ n.senderID = pk ∧ n.calluuid = run.2.2.1 := by
  rcases C58_only_admissible S H cod sk svcs handler net (some ip) evs with h | ⟨ip', pk', served, rest, h1, h2, h3, h4⟩
  · rw [h] at hrun; cases hrun
  · injection h1 with h1; subst h1
    rw [hpk] at h2; injection h2 with h2; subst h2
    obtain ⟨i, hi, hrun⟩ := List.mem_iff_getElem.1 hrun
    have hi' : i < served.length := by rw [h4.length_eq]; exact hi
    obtain ⟨q, ver, f, srv, m, n, he, ha, hr⟩ := List.forall₂_iff_get.1 h4 |>.2 i hi' hi
    refine ⟨q, f, n, ?_, ha.note, ha.sender, ?_⟩
    · rw [h3, ← ha.cert, ← he]; exact List.mem_append_left _ (List.get_mem _ _)
    · rw [← hrun]; simp only [List.get_eq_getElem] at hr; rw [hr]

/-- A network with one client, a table with one method, a codec and a packed request: the hypotheses of C57 are met, also with a handler that fails. -/
example (S : SigScheme) (ck : S.Sk) : let net := Network.new 1 [⟨[1], some (S.pub ck)⟩]
    let r : Request Bytes Bytes := { Request.new [7] [] [47, 97, 47, 98] [5] with marshaledArgs := some [7] }
    net.getPublicKey [1] = .ok (S.pub ck) ∧ r.marshaledArgs = some [7] ∧ r.isUnpacked = false ∧ r.cancelled = false ∧
      Services.get (singleService id [97] [([98], true)] ()) r.method = .ok ((), true) := by
  refine ⟨by simp [Network.getPublicKey, Network.new, Network.addServer, GoMap.insert, GoMap.lookup, GoMap.erase], rfl, rfl, rfl, ?_⟩
  refine ((C59_resolve _ _).1 () true).2 ⟨[97], [98], by decide, .full, ?_⟩
  exact (C59_same_methods id [97] [([98], true)] (by decide) () _ _ _ _).2 ⟨rfl, rfl, true, by simp, rfl⟩

/-- A stream of C58: two served requests with the same note, then one without a note. -/
example (n : ExchangeNote) : let svcs := singleService id [97] [([98], true)] ()
    let q : DirectCallRequest := ⟨[47, 97, 47, 98], [7], some n⟩
    (∀ e ∈ [DirectEv.request q (.ok ()) false, .request q (.ok ()) false], Served svcs (fun _ _ _ b => .ok (.ok b)) n.senderID e) ∧
    ∀ q' ver f, DirectEv.request ⟨[47, 97, 47, 98], [7], none⟩ (.ok ()) false = .request q' ver f → ¬ ∃ srv m n', Admissible svcs n.senderID q' ver srv m n' := by
  intro svcs q
  have hget : Services.get svcs q.method = .ok ((), true) := by
    refine ((C59_resolve _ _).1 () true).2 ⟨[97], [98], by decide, .full, ?_⟩
    exact (C59_same_methods id [97] [([98], true)] (by decide) () _ _ _ _).2 ⟨rfl, rfl, true, by simp, rfl⟩
  refine ⟨?_, ?_⟩
  · intro e he
    refine ⟨q, .ok (), (), true, n, ?_, ⟨hget, rfl, rfl, rfl⟩, by simp⟩
    simpa using he
  · rintro q' ver f h ⟨srv, m, n', ha⟩
    injection h with h1
    subst h1
    exact absurd ha.note (by simp)

end Resmix.Rrpc
