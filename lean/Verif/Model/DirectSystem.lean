import Verif.Model.Direct
import Verif.Model.DirectClient
import Verif.Model.Verifier
set_option autoImplicit false
/-
A connection for direct calls as a whole: the goroutines of the client (Model/DirectClient), the stream to the server and back, and the handler of the
stream at the server (Model/Direct), interleaved arbitrarily. Streams hold at most `window` messages (flow control), in order. Calls are numbered in the order in which
they are made. Not modelled: Close of the client, contexts of requests.
-/
namespace Resmix.Rrpc.DirectSystem
open Resmix.Merkle
variable {ζ μ : Type}

/-- What does not change: the cryptography, the keys of client and server, the server's services, the flow control window, the time after which the cleanup
gives up a call (rrpc/vars.go). -/
structure Config (ζ μ : Type) where
  S : SigScheme
  H : HashFn
  cod : Codec
  ck : S.Sk
  sk : S.Sk
  svcs : Services ζ μ
  window : Nat
  ttl : Nat

/-- What a caller gets: an error, or success with the bytes of the reply (`none`: success without a reply). -/
abbrev Outcome := Except CallErr (Option Bytes)

/-- rrpc/client.go:160-172: what `VerifyAndDispatch` makes of a response before the reply is unpacked (Model/Direct `directReply`); `ver` is what `Verify`
returned. -/
def reply (ver : Go Unit) (msg : DirectCallResponse) : Outcome :=
  match ver with
  | .error e => .error (.other e)
  | .ok () => match msg.result with
    | .rpcError s => match statusErr s with
      | .error e => .error e
      | .ok () => .ok none
    | .payload b => .ok (some b)
    | .unset => .ok none

/-- Method and packed arguments of a call. -/
structure CallData where
  method : Str
  args : Bytes

/-- A handler that was run: the call it was run for (a ghost), server object, handler, call id and arguments, and what it did. -/
structure Ran (ζ μ : Type) where
  call : Nat
  run : HandlerRun ζ μ
  result : Except SvcErr (Except Str Bytes)

/-- The connection. Numbers in the streams are ghosts. -/
structure State (ζ μ : Type) where
  client : DirectClient.State Outcome
  data : List CallData                             -- of the calls made
  entered : List Nat                               -- the calls put into the send channel so far, in order (a ghost)
  up : List (Nat × DirectCallRequest)              -- the stream to the server
  serving : Option (Nat × DirectCallRequest)       -- received by the server's handler (rrpc/server.go:116)
  down : List (Nat × DirectCallResponse)           -- the stream to the client
  ended : Bool                                     -- the server's handler has returned
  lost : Bool                                      -- the client's receiving goroutine has returned (rrpc/client.go:79-86)
  runs : List (Ran ζ μ)                            -- the handlers run (a ghost)

/-- A new connection (rrpc/client.go:177-214). -/
def init : State ζ μ :=
  { client := DirectClient.init, data := [], entered := [], up := [], serving := none, down := [], ended := false, lost := false, runs := [] }

/-- What may happen next. -/
inductive Event (ζ μ : Type)
  | call (uuid : Str) (now : Nat) (method : Str) (args : Bytes)  -- rrpc/client.go:225-236: a call is made
  | enqueue (i : Nat)                                            -- line 237
  | await (i : Nat)                                              -- its caller waits for the result
  | readClosed (i : Nat)                                         -- he receives from the closed channel
  | send                                                         -- lines 106-124
  | sendFails                                                    -- line 124
  | reportFail                                                   -- line 126
  | recv                                                         -- rrpc/server.go:116
  | serve (h : Handler ζ μ) (cache : Cache)                      -- lines 121-165: the request is checked, the handler run, the response sent
  | receive (cache : Cache)                                      -- rrpc/client.go:78, 87, 149-172
  | recvFails                                                    -- lines 79-86
  | dispatch                                                     -- line 157
  | close                                                        -- line 158
  | visit (uuid : Str) (now : Nat)                               -- rrpc/gc.go:16-25
  | notify                                                       -- rrpc/gc.go:27
  | delete                                                       -- rrpc/gc.go:28

/-- rrpc/client.go:106-122: the request for a call. -/
def requestOf (cfg : Config ζ μ) (uuid : Str) (d : CallData) : Go DirectCallRequest :=
  directRequest cfg.S cfg.H cfg.cod cfg.ck (cfg.S.pub cfg.sk) { Request.new () () d.method uuid with marshaledArgs := some d.args }

/-- rrpc/server.go:138: what the server's verifier says about a request, whatever it remembers. -/
def judge (cfg : Config ζ μ) (cache : Cache) (q : DirectCallRequest) : Go Unit :=
  match q.note with
  | none => .ok ()
  | some n => (verifySenderNote cfg.S cfg.H cfg.cod cache n.senderID n).1

/-- rrpc/server.go:121-165: one iteration of the server's loop. -/
def serveOne (cfg : Config ζ μ) (h : Handler ζ μ) (cache : Cache) (q : DirectCallRequest) : List (HandlerRun ζ μ) × List DirectCallResponse × Option Fail :=
  directStep cfg.S cfg.H cfg.cod cfg.sk cfg.svcs h (cfg.S.pub cfg.ck) (.request q (judge cfg cache q) false)

/-- A step of the client alone. -/
def local' (cfg : Config ζ μ) (s : State ζ μ) (e : DirectClient.Ev Outcome) : Option (State ζ μ) :=
  match DirectClient.step cfg.ttl s.client e with
  | none => none
  | some c => some { s with client := c }

/-- One step; `none`: not possible now. -/
def step (cfg : Config ζ μ) (s : State ζ μ) (e : Event ζ μ) : Option (State ζ μ) :=
  match e with
  | .call u now m a => match DirectClient.step cfg.ttl s.client (.call u now) with
    | none => none
    | some c => some { s with client := c, data := s.data ++ [⟨m, a⟩] }
  | .enqueue i =>
    if i ∈ s.entered then none
    else match DirectClient.step cfg.ttl s.client (.enqueue i) with
      | none => none
      | some c => some { s with client := c, entered := s.entered ++ [i] }
  | .await i => local' cfg s (.await i)
  | .readClosed i => local' cfg s (.readClosed i)
  | .send => match s.client.queue with
    | [] => none
    | i :: _ => match s.client.calls[i]?, s.data[i]? with
      | some c, some d => match requestOf cfg c.uuid d with
        | .error _ => none       -- signing a single note does not fail (C45)
        | .ok q =>
          if s.ended then local' cfg s .sendOk    -- the message is discarded
          else if s.up.length < cfg.window then match DirectClient.step cfg.ttl s.client .sendOk with
            | none => none
            | some c' => some { s with client := c', up := s.up ++ [(i, q)] }
          else none
      | _, _ => none
  | .sendFails => if s.ended then local' cfg s .sendFail else none
  | .reportFail => local' cfg s .reportFail
  | .recv => match s.serving, s.up with
    | none, x :: rest => if s.ended then none else some { s with serving := some x, up := rest }
    | _, _ => none
  | .serve h cache => match s.serving with
    | none => none
    | some (i, q) =>
      if s.down.length < cfg.window then
        match serveOne cfg h cache q with
        | (ran, sent, fin) => some { s with serving := none, down := s.down ++ sent.map fun r => (i, r), ended := fin.isSome
                                            runs := s.runs ++ ran.map fun x => ⟨i, x, h x.1 x.2.1 x.2.2.1 x.2.2.2⟩ }
      else none
  | .receive cache =>
    if s.lost then none
    else match s.down with
      | [] => none
      | (_, msg) :: rest => match s.client.disp, msg.note with
        | .idle, none => some { s with client := { s.client with crashed := true } }     -- nil pointer (line 149)
        | .idle, some n =>
          match DirectClient.step cfg.ttl s.client (.respond n.calluuid (reply (verifyReceiverNote cfg.S cfg.H cfg.cod cache (cfg.S.pub cfg.sk) n).1 msg)) with
          | none => none
          | some c => some { s with client := c, down := rest }
        | _, _ => none
  | .recvFails => match s.client.disp with
    | .idle => if s.ended ∧ s.down = [] then some { s with lost := true } else none
    | _ => none
  | .dispatch => local' cfg s .dispatch
  | .close => local' cfg s .close
  | .visit u now => local' cfg s (.visit u now)
  | .notify => local' cfg s .notify
  | .delete => local' cfg s .delete

/-- A sequence of steps. -/
inductive Run (cfg : Config ζ μ) : State ζ μ → List (Event ζ μ) → State ζ μ → Prop
  | nil (s : State ζ μ) : Run cfg s [] s
  | cons {s s' s'' : State ζ μ} {e : Event ζ μ} {es : List (Event ζ μ)} (h : step cfg s e = some s') (t : Run cfg s' es s'') : Run cfg s (e :: es) s''

end Resmix.Rrpc.DirectSystem
