import Verif.Model.Pool
import Verif.Proofs.GoMap
import Verif.Props.Collector
set_option autoImplicit false
/-
C55: the reply a robust call returns.
-/
namespace Resmix.Rrpc
open Resmix.Ecc
variable {ν : Type}

/-- A codec of that kind: a length byte and the bytes. -/
def toyValues : ValueCodec (List Unit) where
  enc v := List.replicate v.length 1 ++ [0]
  dec b := some (List.replicate (b.takeWhile (· == 1)).length ())
  dec_enc v rest := by
    have : (List.replicate v.length (1 : UInt8) ++ [0] ++ rest).takeWhile (· == 1) = List.replicate v.length 1 := by
      induction v with
      | nil => rfl
      | cons a v ih => simpa [List.replicate_succ] using ih
    rw [this]
    simp only [List.length_replicate, Option.some.injEq]
    exact (List.eq_replicate_length.2 fun _ _ => rfl).symm

/-- C55 fails: after any history of calls that leaves a buffer with the reply of an earlier call `a` at its start, the next call `c` that is
given this buffer sends bytes that decode to `a`'s reply, not its own. -/
theorem C55_stale_reply_refuted (K : ValueCodec ν) (s : PoolState) (i c : Nat) (a v : ν) (rest : Bytes) (hb : s.free[i]? = some (K.enc a ++ rest)) :
    ∃ s' bytes, poolRun K s [.get c (some i), .marshal c v, .put c] = some (s', [(c, bytes)]) ∧ K.dec bytes = some a := by
  refine ⟨{ free := s.free.eraseIdx i ++ [K.enc a ++ (rest ++ K.enc v)], held := ((s.held.insert c (K.enc a ++ rest)).insert c (K.enc a ++ (rest ++ K.enc v))).erase c },
    K.enc a ++ (rest ++ K.enc v), ?_, K.dec_enc a _⟩
  simp only [poolRun, poolStep, hb, GoMap.lookup_insert_self, List.append_assoc, List.append_nil, List.nil_append]

/-- C55 fails from the start, end to end: a new server runs two robust calls one after the other; the handler of the first returns `a`, that of
the second `v`. The server splits the second reply and relays pass on any `MinimalRelayedParcels` of its parts: the client reassembles
bytes that decode to `a`. -/
theorem C55_second_call_refuted (K : ValueCodec ν) (net : Network) (C : RS) (hC : NewCoordinator net (.ok C)) (a v : ν)
    (hlen : (K.enc a ++ K.enc v).length < 2 ^ 32) :
    ∃ s bytes parts, poolRun K poolInit [.get 1 none, .marshal 1 a, .put 1, .get 2 (some 0), .marshal 2 v, .put 2] = some (s, [(1, K.enc a), (2, bytes)]) ∧
      ReplyParts C false net bytes (.ok parts) ∧
      ∀ arrived : List RrpcResponse, arrived.Subperm parts → net.minimalRelayedParcels ≤ arrived.length →
        ∃ got, (∀ res, Reconstruct C false (arrived.map some) res ↔ res = .ok got) ∧ K.dec got = some a := by
  obtain ⟨parts, p1, -, -, p4⟩ := C41_reply_parts net C hC (K.enc a ++ K.enc v) hlen
  refine ⟨{ free := [K.enc a ++ K.enc v], held := [] }, K.enc a ++ K.enc v, parts, ?_, (p1 _).2 rfl, fun arrived h1 h2 => ⟨_, p4 arrived h1 h2, K.dec_enc a _⟩⟩
  simp [poolRun, poolStep, poolInit, GoMap.lookup, GoMap.insert, GoMap.erase]

/-- In any state, for any history before and any interleaving of other calls meanwhile: a call that gets a new buffer sends exactly the
encoding of its own reply, which decodes to it. -/
theorem C55_fresh_buffer_partial (K : ValueCodec ν) (s s1 s2 : PoolState) (mid : List (PoolEv ν)) (c : Nat) (v : ν) (o1 o2 : List (Nat × Bytes))
    (hmid : ∀ e ∈ mid, match e with | .get c' _ => c' ≠ c | .marshal c' _ => c' ≠ c | .marshalFail c' _ => c' ≠ c | .put c' => c' ≠ c)
    (h1 : poolRun K s (.get c none :: mid) = some (s1, o1)) (h2 : poolStep K s1 (.marshal c v) = some (s2, o2)) :
    o2 = [(c, K.enc v)] ∧ K.dec (K.enc v) = some v := by
  refine ⟨?_, by simpa using K.dec_enc v []⟩
  have key : ∀ (mid : List (PoolEv ν)) (s : PoolState), s.held.lookup c = some [] →
      (∀ e ∈ mid, match e with | .get c' _ => c' ≠ c | .marshal c' _ => c' ≠ c | .marshalFail c' _ => c' ≠ c | .put c' => c' ≠ c) →
      ∀ s1 o1, poolRun K s mid = some (s1, o1) → s1.held.lookup c = some [] := by
    intro mid
    induction mid with
    | nil => intro s hs _ s1 o1 h; simp only [poolRun, Option.some.injEq, Prod.mk.injEq] at h; rw [← h.1]; exact hs
    | cons e mid ih =>
      intro s hs hm s1 o1 h
      rw [poolRun] at h
      cases hst : poolStep K s e with
      | none => rw [hst] at h; cases h
      | some r =>
        obtain ⟨s', o⟩ := r
        rw [hst] at h
        simp only at h
        cases hrun : poolRun K s' mid with
        | none => rw [hrun] at h; cases h
        | some r' =>
          obtain ⟨s'', o'⟩ := r'
          rw [hrun] at h
          simp only [Option.some.injEq, Prod.mk.injEq] at h
          rw [← h.1]
          refine ih s' ?_ (fun e he => hm e (List.mem_cons_of_mem _ he)) s'' o' hrun
          have hne := hm e List.mem_cons_self
          cases e with
          | get c' r =>
            simp only at hne
            cases r with
            | none =>
              simp only [poolStep, Option.some.injEq, Prod.mk.injEq] at hst
              rw [← hst.1]
              simp only
              rw [GoMap.lookup_insert_ne _ _ (Ne.symm hne)]; exact hs
            | some i =>
              simp only [poolStep] at hst
              split at hst
              · cases hst
              · simp only [Option.some.injEq, Prod.mk.injEq] at hst
                rw [← hst.1]
                simp only
                rw [GoMap.lookup_insert_ne _ _ (Ne.symm hne)]; exact hs
          | marshal c' w =>
            simp only at hne
            simp only [poolStep] at hst
            split at hst
            · cases hst
            · simp only [Option.some.injEq, Prod.mk.injEq] at hst
              rw [← hst.1]
              simp only
              rw [GoMap.lookup_insert_ne _ _ (Ne.symm hne)]; exact hs
          | marshalFail c' w =>
            simp only at hne
            simp only [poolStep] at hst
            split at hst
            · cases hst
            · simp only [Option.some.injEq, Prod.mk.injEq] at hst
              rw [← hst.1]
              simp only
              rw [GoMap.lookup_insert_ne _ _ (Ne.symm hne)]; exact hs
          | put c' =>
            simp only at hne
            simp only [poolStep] at hst
            split at hst
            · cases hst
            · simp only [Option.some.injEq, Prod.mk.injEq] at hst
              rw [← hst.1]
              simp only
              rw [GoMap.lookup_erase, if_neg (Ne.symm hne)]; exact hs
  have hstart : s1.held.lookup c = some [] := by
    rw [poolRun] at h1
    simp only [poolStep] at h1
    cases hrun : poolRun K { s with held := s.held.insert c [] } mid with
    | none => rw [hrun] at h1; cases h1
    | some r' =>
      obtain ⟨s'', o'⟩ := r'
      rw [hrun] at h1
      simp only [Option.some.injEq, Prod.mk.injEq] at h1
      rw [← h1.1]
      exact key mid _ (GoMap.lookup_insert_self _ _ _) hmid s'' o' hrun
  simp only [poolStep, hstart, Option.some.injEq, Prod.mk.injEq] at h2
  rw [← h2.2]
  simp

/-- Non-vacuity of C55_fresh_buffer: in a run in which call 2 gets the used buffer of call 1 (and would reply with stale bytes), call 0, whose buffer was new, replies right. -/
example (K : ValueCodec ν) (v w : ν) : ∃ s1 o1 s2 o2, poolRun K poolInit (.get 0 none :: [.get 1 none, .marshal 1 w, .put 1, .get 2 (some 0)]) = some (s1, o1) ∧
    poolStep K s1 (.marshal 0 v) = some (s2, o2) ∧ o2 = [(0, K.enc v)] ∧ s1.held.lookup 2 = some (K.enc w) := by
  refine ⟨_, _, _, _, rfl, rfl, ?_, ?_⟩ <;> simp [GoMap.lookup, GoMap.insert, GoMap.erase]

end Resmix.Rrpc
