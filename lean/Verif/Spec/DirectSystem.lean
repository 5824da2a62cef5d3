import Verif.Model.DirectSystem
set_option autoImplicit false
/-
What is assumed about the use of a connection for direct calls, and what is promised.
-/
namespace Resmix.Rrpc.DirectSystem
variable {ζ μ : Type}

/-- The connection is used properly: an id is used again only when all earlier calls with it have returned; methods are registered; the values handlers return
can be encoded; no cleanup finds a call older than `ttl`. -/
def Good (cfg : Config ζ μ) (s : State ζ μ) : Event ζ μ → Prop
  | .call u _ m _ => (∀ c ∈ s.client.calls, c.uuid = u → c.got ≠ none) ∧ ∃ x, cfg.svcs.get m = .ok x
  | .serve h _ => ∀ srv m u a msg, h srv m u a ≠ .ok (.error msg)
  | .visit u now => ∀ i c, s.client.waiting.lookup u = some i → s.client.calls[i]? = some c → now - c.start < cfg.ttl
  | _ => True

/-- A sequence of such steps. -/
inductive GoodRun (cfg : Config ζ μ) : State ζ μ → List (Event ζ μ) → State ζ μ → Prop
  | nil (s : State ζ μ) : GoodRun cfg s [] s
  | cons {s s' s'' : State ζ μ} {e : Event ζ μ} {es : List (Event ζ μ)} (h : step cfg s e = some s') (hg : Good cfg s e) (t : GoodRun cfg s' es s'') :
      GoodRun cfg s (e :: es) s''

/-- The steps goroutines, handlers and streams make by themselves: all but new calls, callers that begin to wait, and cleanups. -/
def Event.Own : Event ζ μ → Bool
  | .call _ _ _ _ => false
  | .await _ => false
  | .visit _ _ => false
  | _ => true

/-- A new call. -/
def Event.isCall : Event ζ μ → Bool
  | .call _ _ _ _ => true
  | _ => false

/-- Nothing proper is left to do. -/
def AtRest (cfg : Config ζ μ) (s : State ζ μ) : Prop := ∀ e, e.Own = true → Good cfg s e → step cfg s e = none

/-- What a caller gets if the handler did this: the reply, or the error's status (an error with the code OK is a success without reply). -/
def outcomeOf : Except SvcErr (Except Str Bytes) → Outcome
  | .ok (.ok b) => .ok (some b)
  | .ok (.error _) => .ok none
  | .error e => match statusErr (errToRpcErr e) with
    | .error x => .error x
    | .ok () => .ok none

/-- `x` is a run of the handler registered for the method of call `i`, with its id and arguments. -/
def RunOf (cfg : Config ζ μ) (s : State ζ μ) (x : Ran ζ μ) : Prop :=
  ∃ c d, s.client.calls[x.call]? = some c ∧ s.data[x.call]? = some d ∧ cfg.svcs.get d.method = .ok (x.run.1, x.run.2.1) ∧ x.run.2.2 = (c.uuid, d.args)

end Resmix.Rrpc.DirectSystem
