import Verif.Model.Ibe
set_option autoImplicit false
/-
A node's vote checks with its goroutines and channels: internal/crypto/tibe/vss_ibe.go:192-224 (workers), 246-248 (ReceiveShare), 250-266 (ValidateVote), 269-307
(ReconstructDecrypter). Model/Ibe has the sequential functions.
-/
namespace Resmix.Tibe.VotePool
variable {B : Bls}

/-- The two functions that use the workers. -/
inductive Req (B : Bls)
  | validate (name : Str) (v : Vote B)
  | reconstruct (name : Str) (votes : List (Vote B))

/-- The votes a call has checked. -/
def Req.votes : Req B → List (Vote B)
  | .validate _ v => [v]
  | .reconstruct _ vs => vs

/-- Where a call is: handing vote `i` to the workers (lines 259-263, 287-291), waiting for the response to vote `i` (line 265, 297), returned. -/
inductive Pc (B : Bls)
  | sending (i : Nat)
  | waiting (i : Nat)
  | done (r : Go (Option B.G2))

/-- A call. `start` is the node as it was when the call looked the share up, `sent` the number of votes handed over; both are there for the proofs only. -/
structure Call (B : Bls) where
  req : Req B
  start : Node B
  expoly : ExponentPoly B
  sent : Nat
  pc : Pc B

/-- lines 192-196 `validateTask`; its response channel belongs to vote `ix` of call number `call`. -/
structure Task (B : Bls) where
  call : Nat
  ix : Nat
  vote : Vote B
  expoly : ExponentPoly B

/-- A response channel (capacity 1): empty, with an error in it, closed (with or without an error in it). -/
inductive Resp
  | pending
  | sent (e : Fail)
  | closed (e : Option Fail)

/-- A worker: at line 210, at 211-216, at 218. -/
inductive Worker (B : Bls)
  | idle
  | checking (t : Task B)
  | closing (t : Task B)

/-- The node, all calls so far, the work queue, the workers, the response channels. -/
structure State (B : Bls) where
  node : Node B
  calls : List (Call B)
  queue : List (Task B)
  workers : List (Worker B)
  resps : Nat → Nat → Resp
  crashed : Bool

/-- lines 199-224: a new node on a machine with `cpus` processors. -/
def init (n : Node B) (cpus : Nat) : State B :=
  { node := n, calls := [], queue := [], workers := List.replicate cpus .idle, resps := fun _ _ => .pending, crashed := false }

/-- The first part of a call, up to its first use of the queue: lines 251-257, 270-282. -/
def begin (n : Node B) (req : Req B) : Call B :=
  match req with
  | .validate name _ => match n.shares.lookup name with
    | none => { req := req, start := n, expoly := ⟨[]⟩, sent := 0, pc := .done (.error (.err .unknown "no share for node")) }
    | some s => { req := req, start := n, expoly := s.expoly, sent := 0, pc := .sending 0 }
  | .reconstruct name votes =>
    if votes.length = 0 then { req := req, start := n, expoly := ⟨[]⟩, sent := 0, pc := .done (.error (.err .unknown "no votes")) }
    else match n.shares.lookup name with
      | none => { req := req, start := n, expoly := ⟨[]⟩, sent := 0, pc := .done (.error (.err .unknown "no share for node/index")) }
      | some s => { req := req, start := n, expoly := s.expoly, sent := 0, pc := .sending 0 }

/-- What a call returns if all votes are valid: line 265 (nil), lines 301-306. -/
def final (req : Req B) (e : ExponentPoly B) : Go (Option B.G2) :=
  match req with
  | .validate _ _ => .ok none
  | .reconstruct _ votes => (reconstructKey votes e.threshold).map some

/-- What can happen: a share arrives, a call is made, call `c` hands over a vote or reads a response, worker `w` takes a task, checks it, closes its response channel. -/
inductive Ev (B : Bls)
  | receiveShare (name : Str) (s : VssShare B)
  | call (req : Req B)
  | send (c : Nat)
  | recv (c : Nat)
  | take (w : Nat)
  | check (w : Nat)
  | close (w : Nat)

/-- A response channel changes. -/
def setResp (f : Nat → Nat → Resp) (c i : Nat) (r : Resp) : Nat → Nat → Resp := fun c' i' => if c' = c ∧ i' = i then r else f c' i'

/-- One step; `none`: not possible now (a goroutine that is not there, or has to wait). GetPublicShare (line 212) is one step here; C27 is about its interleavings. -/
def step (s : State B) (e : Ev B) : Option (State B) :=
  if s.crashed then none
  else match e with
  | .receiveShare name sh => some { s with node := s.node.receiveShare name sh }
  | .call req => some { s with calls := s.calls ++ [begin s.node req] }
  | .send c => match s.calls[c]? with
    | some cl => match cl.pc with
      | .sending i => match cl.req.votes[i]? with
        | some v =>
          if s.queue.length < s.workers.length then                                   -- the capacity is that of line 205: as many as workers
            some { s with
              queue := s.queue ++ [{ call := c, ix := i, vote := v, expoly := cl.expoly }]
              calls := s.calls.set c { cl with sent := i + 1, pc := if i + 1 < cl.req.votes.length then .sending (i + 1) else .waiting 0 } }
          else none
        | none => none
      | _ => none
    | none => none
  | .recv c => match s.calls[c]? with
    | some cl => match cl.pc with
      | .waiting i => match s.resps c i with
        | .pending => none
        | .sent f => some { s with calls := s.calls.set c { cl with pc := .done (.error f) } }
        | .closed (some f) => some { s with calls := s.calls.set c { cl with pc := .done (.error f) } }
        | .closed none => some { s with calls := s.calls.set c { cl with
            pc := if i + 1 < cl.req.votes.length then .waiting (i + 1) else .done (final cl.req cl.expoly) } }
      | _ => none
    | none => none
  | .take w => match s.workers[w]? with
    | some .idle => match s.queue with
      | t :: q => some { s with queue := q, workers := s.workers.set w (.checking t) }
      | [] => none
    | _ => none
  | .check w => match s.workers[w]? with
    | some (.checking t) => match Node.checkVote t.expoly t.vote with
      | .ok () => some { s with workers := s.workers.set w (.closing t) }
      | .error (.err k m) => match s.resps t.call t.ix with
        | .pending => some { s with workers := s.workers.set w (.closing t), resps := setResp s.resps t.call t.ix (.sent (.err k m)) }
        | .sent _ => none                                                             -- the channel is full
        | .closed _ => some { s with workers := s.workers.set w .idle, crashed := true }
      | .error _ => some { s with workers := s.workers.set w .idle, crashed := true }
    | _ => none
  | .close w => match s.workers[w]? with
    | some (.closing t) => match s.resps t.call t.ix with
      | .pending => some { s with workers := s.workers.set w .idle, resps := setResp s.resps t.call t.ix (.closed none) }
      | .sent f => some { s with workers := s.workers.set w .idle, resps := setResp s.resps t.call t.ix (.closed (some f)) }
      | .closed _ => some { s with workers := s.workers.set w .idle, crashed := true }
    | _ => none

/-- A run. -/
def run (s : State B) : List (Ev B) → Option (State B)
  | [] => some s
  | e :: es => (step s e).bind fun s' => run s' es

end Resmix.Tibe.VotePool
