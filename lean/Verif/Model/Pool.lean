import Verif.Model.GoMap
set_option autoImplicit false
/-
The buffers of the server's replies: rrpc/rrpc_server_stream.go:247-261 and rrpc/server.go:82; the codec of internal/codec/codec.go.
-/
namespace Resmix.Rrpc

/-- internal/codec/codec.go:33-40: `MarshalIntoWriter` appends `enc v` to the writer; `Unmarshal` decodes the first value of the data and
ignores what follows (ugorji/go/codec reads exactly one value from the reader; trusted). `ν` are the values of one reply type. -/
structure ValueCodec (ν : Type) where
  enc : ν → Bytes
  dec : Bytes → Option ν
  dec_enc : ∀ v rest, dec (enc v ++ rest) = some v

/-- The pool: buffers put back, with their contents, and buffers in use, by call. -/
structure PoolState where
  free : List Bytes
  held : GoMap Nat Bytes

/-- Steps of calls, in the order in which they happen (any interleaving). `reuse`: the position of the buffer that `Get` returns, or `none`
for a new one (sync.Pool promises nothing about the choice). -/
inductive PoolEv (ν : Type)
  | get (call : Nat) (reuse : Option Nat)      -- line 248
  | marshal (call : Nat) (v : ν)               -- line 251, success
  | marshalFail (call : Nat) (junk : Bytes)    -- line 251, an error after writing `junk`
  | put (call : Nat)                           -- line 249, when the function returns

/-- One step; the second component is what `bf.Bytes()` is then (lines 256, 258), for a call that marshalled its reply. `none`: the step
is impossible. The buffer is never reset. -/
def poolStep {ν : Type} (K : ValueCodec ν) (s : PoolState) : PoolEv ν → Option (PoolState × List (Nat × Bytes))
  | .get c none => some ({ s with held := s.held.insert c [] }, [])
  | .get c (some i) => match s.free[i]? with
    | none => none
    | some b => some ({ free := s.free.eraseIdx i, held := s.held.insert c b }, [])
  | .marshal c v => match s.held.lookup c with
    | none => none
    | some b => some ({ s with held := s.held.insert c (b ++ K.enc v) }, [(c, b ++ K.enc v)])
  | .marshalFail c junk => match s.held.lookup c with
    | none => none
    | some b => some ({ s with held := s.held.insert c (b ++ junk) }, [])
  | .put c => match s.held.lookup c with
    | none => none
    | some b => some ({ free := s.free ++ [b], held := s.held.erase c }, [])

/-- A sequence of steps. -/
def poolRun {ν : Type} (K : ValueCodec ν) : PoolState → List (PoolEv ν) → Option (PoolState × List (Nat × Bytes))
  | s, [] => some (s, [])
  | s, e :: es => match poolStep K s e with
    | none => none
    | some (s', o) => match poolRun K s' es with
      | none => none
      | some (s'', o') => some (s'', o ++ o')

/-- The pool of a new server (rrpc/server.go:82). -/
def poolInit : PoolState := { free := [], held := [] }

end Resmix.Rrpc
