import Verif.Model.Strings
set_option autoImplicit false
/-
Model of rrpc/requests.go. Not modelled: a request without a context (`IsCancelled` would panic).
-/
namespace Resmix.Rrpc

/-- internal/codec: `enc` is what `MarshalIntoWriter` writes, or its error; `dec b old` is what `Unmarshal(b, ptr)` leaves in a variable that
held `old` (possibly partly written if it fails), and its result. -/
structure ReqCodec (ν ω : Type) where
  enc : ν → Go Bytes
  dec : Bytes → ω → ω × Go Unit

/-- rrpc/requests.go:10-21 `Request`. `args` and `reply` are what the two interfaces point to; `cancelled`: the context is done. -/
structure Request (ν ω : Type) where
  args : ν
  reply : ω
  method : Str
  uuid : Str
  marshaledArgs : Option Bytes
  marshaledReply : Option Bytes
  isUnpacked : Bool
  cancelled : Bool

/-- A request as the user makes it. -/
def Request.new {ν ω : Type} (args : ν) (reply : ω) (method uuid : Str) : Request ν ω :=
  { args := args, reply := reply, method := method, uuid := uuid, marshaledArgs := none, marshaledReply := none, isUnpacked := false, cancelled := false }

/-- `context.Canceled`. -/
def ctxCanceled : Fail := .err .canceled "context canceled"

variable {ν ω : Type}

/-- rrpc/requests.go:46-62 `packWithBuffer`; `buf` is what the buffer already holds. `bf.Bytes()` of the buffers used is never nil. -/
def Request.packWithBuffer (K : ReqCodec ν ω) (buf : Bytes) (r : Request ν ω) : Request ν ω × Go Unit :=
  match r.marshaledArgs with
  | some _ => (r, .ok ())
  | none =>
    if r.cancelled then (r, .error ctxCanceled)
    else match K.enc r.args with
      | .error e => (r, .error e)
      | .ok b => ({ r with marshaledArgs := some (buf ++ b) }, .ok ())

/-- rrpc/requests.go:23-26 `pack`: with a new buffer. -/
def Request.pack (K : ReqCodec ν ω) (r : Request ν ω) : Request ν ω × Go Unit := r.packWithBuffer K []

/-- rrpc/requests.go:28-44 `unpack`. A nil reply slice is decoded like an empty one. -/
def Request.unpack (K : ReqCodec ν ω) (r : Request ν ω) : Request ν ω × Go Unit :=
  if r.isUnpacked then (r, .ok ())
  else if r.cancelled then (r, .error ctxCanceled)
  else match K.dec (r.marshaledReply.getD []) r.reply with
    | (v, .error e) => ({ r with reply := v }, .error e)
    | (v, .ok ()) => ({ r with reply := v, isUnpacked := true }, .ok ())

/-- What may happen to a request: the two functions, its context is cancelled, a response arrives (rrpc/client.go:170, 275), the user
changes the arguments. -/
inductive ReqOp (ν : Type)
  | pack
  | unpack
  | cancel
  | respond (b : Bytes)
  | setArgs (v : ν)

/-- One operation and its result. -/
def Request.step (K : ReqCodec ν ω) (r : Request ν ω) : ReqOp ν → Request ν ω × Go Unit
  | .pack => r.pack K
  | .unpack => r.unpack K
  | .cancel => ({ r with cancelled := true }, .ok ())
  | .respond b => ({ r with marshaledReply := some b }, .ok ())
  | .setArgs v => ({ r with args := v }, .ok ())

/-- A sequence of operations and the result of each. -/
def Request.run (K : ReqCodec ν ω) (r : Request ν ω) : List (ReqOp ν) → Request ν ω × List (Go Unit)
  | [] => (r, [])
  | op :: ops =>
    let s := r.step K op
    let t := Request.run K s.1 ops
    (t.1, s.2 :: t.2)

end Resmix.Rrpc
