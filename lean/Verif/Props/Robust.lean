import Verif.Proofs.RobustSafe
set_option autoImplicit false
/-
C50: a robust request always decides. C72: answers of relays and crashes of the client.
-/
namespace Resmix.Rrpc
open Resmix.Ecc

theorem accepted_iff (a : Answer) : a.accepted = true ↔ validateRrpcResponse a.2 a.1 = .ok () := by
  obtain ⟨⟨e, r, u⟩, v⟩ := a
  rcases e with _ | s
  · rcases r with _ | ⟨resp, err, pk, note⟩
    · simp [Answer.accepted, validateRrpcResponse]
    · rcases err with _ | s
      · rcases note with _ | n
        · simp [Answer.accepted, validateRrpcResponse]
        · cases v <;> simp [Answer.accepted, validateRrpcResponse, liftGo, Except.toBool]
      · simp [Answer.accepted, validateRrpcResponse, statusErr]
  · simp [Answer.accepted, validateRrpcResponse, statusErr]

theorem crashes_iff (a : Answer) : a.crashes ↔ validateRrpcResponse a.2 a.1 = .error (.other .panic) := by
  obtain ⟨⟨e, r, u⟩, v⟩ := a
  rcases e with _ | s
  · rcases r with _ | ⟨resp, err, pk, note⟩
    · simp [Answer.crashes, validateRrpcResponse]
    · rcases err with _ | s
      · rcases note with _ | n
        · simp [Answer.crashes, validateRrpcResponse]
        · cases v <;> simp [Answer.crashes, validateRrpcResponse, liftGo]
      · simp [Answer.crashes, validateRrpcResponse, statusErr]; split <;> simp
  · simp [Answer.crashes, validateRrpcResponse, statusErr]; split <;> simp

theorem complaint_of (a : Answer) (e : CallErr) (h : validateRrpcResponse a.2 a.1 = .error e) (hc : ¬ a.crashes) : a.Complaint e := by
  obtain ⟨⟨er, r, u⟩, v⟩ := a
  rcases er with _ | s
  · rcases r with _ | ⟨resp, err, pk, note⟩
    · simp [validateRrpcResponse] at h; exact ⟨_, h.symm⟩
    · rcases err with _ | s
      · rcases note with _ | n
        · simp [Answer.crashes] at hc
        · cases v with
          | ok u => simp [validateRrpcResponse, liftGo] at h
          | error f => simp [validateRrpcResponse, liftGo] at h; exact ⟨f, rfl, h.symm⟩
      · simp only [validateRrpcResponse, statusErr] at h
        split at h
        · cases h
        · injection h with h; exact h.symm
  · simp only [validateRrpcResponse, statusErr] at h
    split at h
    · cases h
    · injection h with h; exact h.symm

theorem loop_accepted (minP maxE : Int) (a : Answer) (rest : List RobustEv) (errs : Int) (acc : List (Option CallStreamResponse)) (h : a.accepted = true) :
    robustLoop minP maxE (a.ev :: rest) errs acc = if ((acc ++ [a.1.response]).length : Int) ≥ minP then some (.ok (acc ++ [a.1.response]))
      else robustLoop minP maxE rest errs (acc ++ [a.1.response]) := by
  unfold Answer.ev
  rw [robustLoop, (accepted_iff a).1 h]

theorem loop_rejected (minP maxE : Int) (a : Answer) (rest : List RobustEv) (errs : Int) (acc : List (Option CallStreamResponse)) (h : a.accepted = false)
    (hc : ¬ a.crashes) : ∃ e, validateRrpcResponse a.2 a.1 = .error e ∧
      robustLoop minP maxE (a.ev :: rest) errs acc = if errs + 1 > maxE then some (.error e) else robustLoop minP maxE rest (errs + 1) acc := by
  cases hv : validateRrpcResponse a.2 a.1 with
  | ok u => rw [(accepted_iff a).2 hv] at h; cases h
  | error e =>
    refine ⟨e, rfl, ?_⟩
    unfold Answer.ev
    rw [robustLoop, hv]
    rw [crashes_iff] at hc
    rw [hv] at hc
    cases e with
    | other f => cases f <;> simp_all
    | _ => rfl

theorem loop_success (minP maxE : Int) (as : List Answer) (more : List RobustEv) (errs : Int) (acc : List (Option CallStreamResponse))
    (hacc : (acc.length : Int) < minP) (hc : ∀ a ∈ as, ¬ a.crashes) (hbad : errs + as.countP (fun a => !a.accepted) ≤ maxE)
    (hgood : minP ≤ acc.length + as.countP (·.accepted)) :
    robustLoop minP maxE (as.map Answer.ev ++ more) errs acc =
      some (.ok (acc ++ (((as.filter (·.accepted)).take (minP - acc.length).toNat).map fun a => a.1.response))) := by
  induction as generalizing errs acc with
  | nil => simp at hgood; omega
  | cons a as ih =>
    rw [List.map_cons, List.cons_append]
    cases ha : a.accepted with
    | true =>
      rw [loop_accepted _ _ _ _ _ _ ha, List.filter_cons_of_pos (by simpa using ha)]
      simp only [List.countP_cons, ha, Bool.not_true] at hbad hgood
      have ht : (minP - acc.length).toNat = (minP - (acc ++ [a.1.response]).length).toNat + 1 := by
        rw [List.length_append, List.length_singleton]; omega
      split
      · next h =>
        have : (minP - (acc ++ [a.1.response]).length).toNat = 0 := by omega
        rw [ht, this]
        simp
      · next h =>
        rw [ih errs (acc ++ [a.1.response]) (by omega) (fun x hx => hc x (List.mem_cons_of_mem _ hx)) (by simpa using hbad)
          (by rw [List.length_append, List.length_singleton]; push_cast; simp at hgood; omega)]
        rw [ht]
        simp
    | false =>
      obtain ⟨e, -, h2⟩ := loop_rejected minP maxE a (as.map Answer.ev ++ more) errs acc ha (hc a List.mem_cons_self)
      rw [h2]
      simp only [List.countP_cons, ha, Bool.not_false, if_true] at hbad hgood
      push_cast at hbad
      rw [if_neg (by omega), List.filter_cons_of_neg (by simp [ha])]
      exact ih (errs + 1) acc hacc (fun x hx => hc x (List.mem_cons_of_mem _ hx)) (by omega) (by simpa using hgood)

theorem loop_failure (minP maxE : Int) (as : List Answer) (more : List RobustEv) (errs : Int) (acc : List (Option CallStreamResponse))
    (herr : errs ≤ maxE) (hc : ∀ a ∈ as, ¬ a.crashes) (hbad : maxE < errs + as.countP (fun a => !a.accepted))
    (hgood : acc.length + (as.countP (·.accepted) : Int) < minP) :
    ∃ a e, (as.filter fun a => !a.accepted)[(maxE - errs).toNat]? = some a ∧ validateRrpcResponse a.2 a.1 = .error e ∧
      robustLoop minP maxE (as.map Answer.ev ++ more) errs acc = some (.error e) := by
  induction as generalizing errs acc with
  | nil => simp at hbad; omega
  | cons a as ih =>
    rw [List.map_cons, List.cons_append]
    cases ha : a.accepted with
    | true =>
      rw [loop_accepted _ _ _ _ _ _ ha, List.filter_cons_of_neg (by simp [ha])]
      simp only [List.countP_cons, ha, Bool.not_true] at hbad hgood
      simp only [if_true] at hgood
      push_cast at hgood
      rw [if_neg (by rw [List.length_append, List.length_singleton]; push_cast; omega)]
      exact ih errs (acc ++ [a.1.response]) herr (fun x hx => hc x (List.mem_cons_of_mem _ hx)) (by simpa using hbad)
        (by rw [List.length_append, List.length_singleton]; push_cast; omega)
    | false =>
      obtain ⟨e, h1, h2⟩ := loop_rejected minP maxE a (as.map Answer.ev ++ more) errs acc ha (hc a List.mem_cons_self)
      rw [h2]
      rw [List.filter_cons_of_pos (by simp [ha])]
      simp only [List.countP_cons, ha, Bool.not_false, if_true] at hbad hgood
      push_cast at hbad
      split
      · next h =>
        have : (maxE - errs).toNat = 0 := by omega
        exact ⟨a, e, by rw [this]; rfl, h1, rfl⟩
      · next h =>
        have ht : (maxE - errs).toNat = (maxE - (errs + 1)).toNat + 1 := by omega
        rw [ht, List.getElem?_cons_succ]
        exact ih (errs + 1) acc (by omega) (fun x hx => hc x (List.mem_cons_of_mem _ hx)) (by omega) (by simpa using hgood)

/-- C50. When every relay answers once, `RobustRequest` has returned after at most as many answers as there are servers, whatever the
order of the answers and whatever comes later. It succeeds if and only if at most `MaxErrors` answers are not accepted; then it
returns the first `MinimalRelayedParcels` accepted responses, in the order of their arrival. Otherwise it returns the error of the
first answer that is one too many. (Answers that crash the client, see C72, excluded.) -/
theorem C50_decides (net : Network) (h1 : 1 ≤ net.tau) (h2 : net.tau ≤ net.serverAddresses.length) (as : List Answer)
    (hn : as.length = net.serverAddresses.length) (hc : ∀ a ∈ as, ¬ a.crashes) (more : List RobustEv) :
    ((as.countP (fun a => !a.accepted) : Int) ≤ net.maxErrors →
      net.minimalRelayedParcels ≤ as.countP (·.accepted) ∧
      robustRequest net (as.map Answer.ev ++ more) =
        some (.ok (((as.filter (·.accepted)).take net.minimalRelayedParcels.toNat).map fun a => a.1.response))) ∧
    (net.maxErrors < (as.countP (fun a => !a.accepted) : Int) →
      ∃ a e, (as.filter fun a => !a.accepted)[net.maxErrors.toNat]? = some a ∧ a.Complaint e ∧
        robustRequest net (as.map Answer.ev ++ more) = some (.error e)) := by
  have hsum : as.length = as.countP (·.accepted) + as.countP (fun a => !a.accepted) := by
    rw [List.length_eq_countP_add_countP (fun a : Answer => a.accepted)]
    congr 1
    exact List.countP_congr (fun a _ => by cases a.accepted <;> simp)
  have hmin : net.minimalRelayedParcels + net.maxErrors = as.length := by
    unfold Network.minimalRelayedParcels; rw [hn]; ring
  have hpos : 0 < net.minimalRelayedParcels := by
    unfold Network.minimalRelayedParcels Network.maxErrors; omega
  have he : 0 ≤ net.maxErrors := by unfold Network.maxErrors; omega
  constructor
  · intro hbad
    have hg : net.minimalRelayedParcels ≤ as.countP (·.accepted) := by omega
    refine ⟨hg, ?_⟩
    have := loop_success net.minimalRelayedParcels net.maxErrors as more 0 [] (by simpa using hpos) hc (by omega) (by simpa using hg)
    simpa [robustRequest] using this
  · intro hbad
    have := loop_failure net.minimalRelayedParcels net.maxErrors as more 0 [] he hc (by omega) (by simp; omega)
    obtain ⟨a, e, ha, hv, hr⟩ := this
    rw [sub_zero] at ha
    refine ⟨a, e, ha, complaint_of a e hv (hc a ?_), by simpa [robustRequest] using hr⟩
    exact List.mem_of_mem_filter (List.mem_of_getElem? ha)

/-- C50, cancellation: a request that still waits when one of the contexts ends returns the context's error. -/
theorem C50_cancelled (net : Network) (as : List Answer) (more : List RobustEv) (hw : robustRequest net (as.map Answer.ev) = none) :
    robustRequest net (as.map Answer.ev ++ .done :: more) = some (.error .ctxDone) := by
  unfold robustRequest at hw ⊢
  generalize (0 : Int) = errs at *
  generalize ([] : List (Option CallStreamResponse)) = acc at *
  induction as generalizing errs acc with
  | nil => rfl
  | cons a as ih =>
    rw [List.map_cons] at hw ⊢
    rw [List.cons_append]
    unfold Answer.ev at hw ⊢
    rw [robustLoop] at hw ⊢
    split at hw
    · cases hw
    · split at hw
      · cases hw
      · next hif => rw [if_neg hif]; exact ih _ _ hw
    · split at hw
      · cases hw
      · next hif => rw [if_neg hif]; exact ih _ _ hw

/-- An accepted and a rejected answer. -/
def exampleAccepted (p : RrpcResponse) : Answer :=
  ({ relayStreamError := none, uuid := [1]
     response := some { response := some p, rpcError := none, publicKey := [], note := some (exampleNote) } }, .ok ())
where exampleNote : ExchangeNote := { senderID := [], receiverID := [], senderMerkleProof := none, receiverMerkleProof := none, calluuid := [1] }

def exampleRejected : Answer := ({ relayStreamError := some { code := 1, message := [] }, uuid := [1], response := none }, .ok ())

/-- Non-vacuity of C50: five servers, tau 3, two bad answers first, and three bad answers. -/
example (p : RrpcResponse) : robustLoop 3 2 ([exampleRejected, exampleAccepted p, exampleRejected, exampleAccepted p, exampleAccepted p].map Answer.ev) 0 [] =
    some (.ok [(exampleAccepted p).1.response, (exampleAccepted p).1.response, (exampleAccepted p).1.response]) := by rfl

example (p : RrpcResponse) : robustLoop 3 2 ([exampleRejected, exampleAccepted p, exampleRejected, exampleAccepted p, exampleRejected].map Answer.ev) 0 [] =
    some (.error (.status { code := 1, message := [] })) := by rfl

/-! ### C72 -/

/-- A relay's answer: an error with the code OK and nothing else. -/
def okErrorAnswer (ver : Go Unit) : Answer := ({ relayStreamError := some { code := 0, message := [] }, response := none, uuid := [] }, ver)

/-- As many accepted answers as are needed. -/
theorem accepted_run (net : Network) (h1 : 1 ≤ net.tau) (h2 : net.tau ≤ net.serverAddresses.length) (as : List Answer)
    (hacc : ∀ a ∈ as, a.accepted = true) (hn : (as.length : Int) = net.minimalRelayedParcels) :
    robustRequest net (as.map Answer.ev) = some (.ok (as.map fun a => a.1.response)) := by
  have hnc : ∀ a ∈ as, ¬ a.crashes := fun a ha hcr => by
    have := (accepted_iff a).1 (hacc a ha)
    rw [crashes_iff] at hcr
    rw [this] at hcr; cases hcr
  have hpos : 0 < net.minimalRelayedParcels := by
    unfold Network.minimalRelayedParcels Network.maxErrors; omega
  have hcp : as.countP (·.accepted) = as.length := List.countP_eq_length.2 hacc
  have hcb : as.countP (fun a => !a.accepted) = 0 := by
    rw [List.countP_eq_zero]; intro a ha; simp [hacc a ha]
  have := loop_success net.minimalRelayedParcels net.maxErrors as [] 0 [] (by simpa using hpos) hnc
    (by rw [hcb]; unfold Network.maxErrors; simp; omega) (by rw [hcp]; simp; omega)
  rw [List.append_nil, List.filter_eq_self.2 hacc, List.take_of_length_le (by simp; omega)] at this
  simpa [robustRequest] using this

/-- C72 fails. An answer with a stream error of code OK is not treated as an error: although empty it is accepted, whatever the
certificate check would say, and the client panics when it puts the reply together. -/
theorem C72_ok_status_refuted (net : Network) (C : RS) (h1 : 1 ≤ net.tau) (h2 : net.tau ≤ net.serverAddresses.length) (ver : Go Unit)
    (as : List Answer) (hc : ∀ a ∈ as, a.accepted = true) (hn : (as.length : Int) + 1 = net.minimalRelayedParcels) (res : Option (Except CallErr Bytes)) :
    RobustReply C false net ((okErrorAnswer ver :: as).map Answer.ev) res ↔ res = some (.error (.other .panic)) := by
  have hacc : ∀ a ∈ okErrorAnswer ver :: as, a.accepted = true := by
    rintro a (_ | ⟨_, h⟩)
    · rfl
    · exact hc a h
  unfold RobustReply
  rw [accepted_run net h1 h2 _ hacc (by rw [List.length_cons]; push_cast; omega)]
  simp only [List.map_cons]
  have hnil : (okErrorAnswer ver).1.response = none := rfl
  rw [hnil]
  simp only [Option.bind_none, Reconstruct]
  constructor
  · rintro ⟨out, rfl, rfl⟩; rfl
  · rintro rfl; exact ⟨_, rfl, rfl⟩

/-- C72 fails: a response without a note crashes the client at once. -/
theorem C72_no_note_refuted (net : Network) (p : Option RrpcResponse) (pk uuid : Bytes) (ver : Go Unit) (more : List RobustEv) :
    robustRequest net (.answer ⟨none, some ⟨p, none, pk, none⟩, uuid⟩ ver :: more) = some (.error (.other .panic)) := rfl

/-- C72 fails: an accepted response (the certificate does not cover the reply part) whose relay index is not that of a server crashes
the client when the reply is put together. -/
theorem C72_relay_index_refuted (net : Network) (C : RS) (hC : NewCoordinator net (.ok C)) (h1 : 1 ≤ net.tau) (h2 : net.tau ≤ net.serverAddresses.length)
    (p : RrpcResponse) (note : ExchangeNote) (hidx : p.relayIndex < 0 ∨ (net.serverAddresses.length : Int) ≤ p.relayIndex) (hl : 4 ≤ p.messageLength.length)
    (pk uuid : Bytes) (as : List Answer) (hc : ∀ a ∈ as, a.accepted = true) (hn : (as.length : Int) + 1 = net.minimalRelayedParcels)
    (res : Option (Except CallErr Bytes)) :
    RobustReply C false net (.answer ⟨none, some ⟨some p, none, pk, some note⟩, uuid⟩ (.ok ()) :: as.map Answer.ev) res ↔ res = some (.error (.other .panic)) := by
  obtain ⟨hk, hm, hcn⟩ := coordinator_code hC
  set a0 : Answer := (⟨none, some ⟨some p, none, pk, some note⟩, uuid⟩, .ok ()) with ha0
  have hacc : ∀ a ∈ a0 :: as, a.accepted = true := by
    rintro a (_ | ⟨_, h⟩)
    · rfl
    · exact hc a h
  have hreq := accepted_run net h1 h2 (a0 :: as) hacc (by rw [List.length_cons]; push_cast; omega)
  rw [List.map_cons] at hreq
  unfold RobustReply
  rw [show RobustEv.answer ⟨none, some ⟨some p, none, pk, some note⟩, uuid⟩ (.ok ()) = a0.ev from rfl, hreq]
  obtain ⟨n, hln, -⟩ := leUint32_ok _ hl
  have hput : putIntoShards (newShards C) p.relayIndex p.payload = .error .panic := by
    unfold putIntoShards newShards
    have : numChunks = 35 + 1 := rfl
    rw [this, List.replicate_succ, List.zipIdx_cons, List.mapM_cons]
    generalize List.zipIdx _ _ = tl
    cases hp : goIndex p.payload 0 with
    | error e =>
      have : e = .panic := by unfold goIndex at hp; split at hp <;> simp_all
      subst this; simp [bind, Except.bind, hp]
    | ok x =>
      have : (if p.relayIndex < 0 then (.error .panic : Go (List Bytes)) else goSet (List.replicate (C.k + C.m) []) p.relayIndex.toNat x) = .error .panic := by
        split
        · rfl
        · unfold goSet; rw [if_neg (by rw [List.length_replicate, hcn]; omega)]
      simp only [bind, Except.bind, hp, this]
  have hfill : ∀ tl, fillShards C ((p.relayIndex, p.payload) :: tl) = .error .panic := by
    intro tl
    unfold fillShards
    rw [List.foldlM_cons, hput]; rfl
  have hresp : a0.1.response = some ⟨some p, none, pk, some note⟩ := rfl
  simp only [List.map_cons, hresp, Option.bind_some, Reconstruct, hln, List.mapM_cons, respShards]
  generalize hT : (List.map (fun r => Option.bind r fun x => x.response) (List.map (fun a => a.1.response) as)).mapM respShards = T
  have hTp : ∀ e, T = .error e → e = .panic := by
    subst hT
    generalize List.map (fun r => Option.bind r fun x => x.response) (List.map (fun a => a.1.response) as) = l
    induction l with
    | nil => intro e h; simp [pure, Except.pure] at h
    | cons r l ih =>
      intro e h
      rw [List.mapM_cons] at h
      cases r with
      | none => simp [respShards, bind, Except.bind] at h; exact h.symm
      | some r =>
        cases hl : l.mapM respShards with
        | error e' => rw [hl] at h; simp [respShards, bind, Except.bind] at h; rw [← h]; exact ih e' hl
        | ok t => rw [hl] at h; simp [respShards, bind, Except.bind, pure, Except.pure] at h
  cases T with
  | error e =>
    have := hTp e rfl
    subst this
    simp only [bind, Except.bind]
    constructor
    · rintro ⟨out, rfl, rfl⟩; rfl
    · rintro rfl; exact ⟨_, rfl, rfl⟩
  | ok t =>
    simp only [bind, Except.bind, pure, Except.pure, hfill]
    constructor
    · rintro ⟨out, rfl, rfl⟩; rfl
    · rintro rfl; exact ⟨_, rfl, rfl⟩

theorem validate_wf (n : Nat) (r : RelayStreamResponse) (ver : Go Unit) (hw : r.WellFormed n) (hv : ver ≠ .error .panic) :
    validateRrpcResponse ver r ≠ .error (.other .panic) ∧
    (validateRrpcResponse ver r = .ok () → ∃ p, r.response.bind (·.response) = some p ∧ p.WellFormed n) := by
  unfold RelayStreamResponse.WellFormed at hw
  unfold validateRrpcResponse
  cases h1 : r.relayStreamError with
  | some s => rw [h1] at hw; simp only [statusErr] at hw ⊢; rw [if_neg hw]; simp
  | none =>
    rw [h1] at hw; simp only at hw ⊢
    cases h2 : r.response with
    | none => simp
    | some c =>
      rw [h2] at hw; simp only at hw ⊢
      cases h3 : c.rpcError with
      | some s => rw [h3] at hw; simp only [statusErr] at hw ⊢; rw [if_neg hw]; simp
      | none =>
        rw [h3] at hw; simp only at hw ⊢
        obtain ⟨hnote, p, hp, hpw⟩ := hw
        cases h4 : c.note with
        | none => exact absurd h4 hnote
        | some nt =>
          simp only
          refine ⟨?_, fun _ => ⟨p, by simpa using hp, hpw⟩⟩
          cases ver with
          | ok u => simp [liftGo]
          | error e => simpa [liftGo] using hv

theorem loop_wf (n : Nat) (minP maxE : Int) (evs : List RobustEv) (errs : Int) (acc : List (Option CallStreamResponse))
    (hw : ∀ ev ∈ evs, ∀ r ver, ev = .answer r ver → r.WellFormed n ∧ ver ≠ .error .panic)
    (hacc : ∀ r ∈ acc, ∃ p, r.bind (·.response) = some p ∧ p.WellFormed n) :
    robustLoop minP maxE evs errs acc ≠ some (.error (.other .panic)) ∧
    ∀ rs, robustLoop minP maxE evs errs acc = some (.ok rs) → ∀ r ∈ rs, ∃ p, r.bind (·.response) = some p ∧ p.WellFormed n := by
  induction evs generalizing errs acc with
  | nil => simp [robustLoop]
  | cons ev evs ih =>
    have hw' := fun ev' (h : ev' ∈ evs) => hw ev' (List.mem_cons_of_mem _ h)
    cases ev with
    | done => simp [robustLoop]
    | answer r ver =>
      obtain ⟨w1, w2⟩ := hw _ List.mem_cons_self r ver rfl
      obtain ⟨v1, v2⟩ := validate_wf n r ver w1 w2
      rw [robustLoop]
      split
      · next h => exact absurd h v1
      · next e _ h =>
        split
        · refine ⟨?_, by simp⟩
          intro h'
          simp only [Option.some.injEq, Except.error.injEq] at h'
          subst h'; exact v1 h
        · exact ih _ _ hw' hacc
      · next h =>
        have hacc' : ∀ x ∈ acc ++ [r.response], ∃ p, x.bind (·.response) = some p ∧ p.WellFormed n := by
          intro x hx
          rcases List.mem_append.1 hx with hx | hx
          · exact hacc x hx
          · rw [List.mem_singleton.1 hx]; exact v2 h
        split
        · refine ⟨by simp, ?_⟩
          intro rs hrs
          simp only [Option.some.injEq, Except.ok.injEq] at hrs
          subst hrs
          exact hacc'
        · exact ih _ _ hw' hacc'

/-- What holds of C72: whatever well-formed answers arrive, in whatever number and order, the client does not crash. -/
theorem C72_well_formed_answers_partial (net : Network) (C : RS) (hC : NewCoordinator net (.ok C)) (stopped : Bool) (evs : List RobustEv)
    (hw : ∀ r ver, RobustEv.answer r ver ∈ evs → r.WellFormed net.serverAddresses.length ∧ ver ≠ .error .panic)
    (res : Option (Except CallErr Bytes)) (hres : RobustReply C stopped net evs res) : res ≠ some (.error (.other .panic)) := by
  obtain ⟨hk, hm, hn⟩ := coordinator_code hC
  obtain ⟨l1, l2⟩ := loop_wf net.serverAddresses.length net.minimalRelayedParcels net.maxErrors evs 0 []
    (fun ev hev r ver he => hw r ver (he ▸ hev)) (by simp)
  unfold RobustReply robustRequest at hres
  split at hres
  · subst hres; simp
  · next e he => subst hres; rw [he] at l1; simpa using l1
  · next rs hrs =>
    have hall := l2 rs hrs
    obtain ⟨out, hout, rfl⟩ := hres
    have hne : out ≠ .error .panic := by
      have hps : ∃ ps : List RrpcResponse, (rs.map fun r => r.bind (·.response)) = ps.map some ∧ ∀ p ∈ ps, p.WellFormed net.serverAddresses.length := by
        clear hrs hout l2
        induction rs with
        | nil => exact ⟨[], rfl, by simp⟩
        | cons r rs ih =>
          obtain ⟨ps, h1, h2⟩ := ih (fun r hr => hall r (List.mem_cons_of_mem _ hr))
          obtain ⟨p, h3, h4⟩ := hall r List.mem_cons_self
          refine ⟨p :: ps, by rw [List.map_cons, List.map_cons, h3, h1], ?_⟩
          rintro q (_ | ⟨_, hq⟩)
          · exact h4
          · exact h2 q hq
      obtain ⟨ps, hps, hwf⟩ := hps
      rw [hps] at hout
      have hmm : (ps.map some).mapM respShards = .ok (ps.map fun p => (p.relayIndex, p.payload)) := by
        rw [Shuffle.mapM_ok _ (fun (q : Option RrpcResponse) => match q with | none => (0, []) | some r => (r.relayIndex, r.payload))]
        · rw [List.map_map]; rfl
        · intro q hq
          obtain ⟨a, _, rfl⟩ := List.mem_map.1 hq
          rfl
      cases ps with
      | nil => simp only [List.map_nil, Reconstruct] at hout; subst hout; simp
      | cons p ps =>
        obtain ⟨n, hln, -⟩ := leUint32_ok _ (hwf p List.mem_cons_self).1
        obtain ⟨sh, hsh, hshape⟩ := fill_shape C ((p :: ps).map fun p => (p.relayIndex, p.payload)) (by
          intro x hx
          obtain ⟨q, hq, rfl⟩ := List.mem_map.1 hx
          obtain ⟨-, q1, q2, q3⟩ := hwf q hq
          exact ⟨q1, by rw [hn]; exact q2, q3⟩)
        rw [List.map_cons] at hout
        unfold Reconstruct at hout
        rw [← List.map_cons, hmm] at hout
        simp only [hsh] at hout
        rw [List.map_cons] at hout
        simp only [hln] at hout
        obtain ⟨o, ho, rfl⟩ := hout
        have := AuthReconstruct_no_panic C stopped sh n hshape.1 o ho
        cases o with
        | ok d => simp
        | error e => cases e <;> simp_all
    cases out with
    | ok d => simp [liftGo]
    | error e => simpa [liftGo] using hne

/-- Non-vacuity: an answer of the right shape for three servers. -/
example : (exampleAccepted ⟨List.replicate 36 [7], [1, 0, 0, 0], 2⟩).1.WellFormed 3 :=
  ⟨by decide, _, rfl, by decide, by decide, by decide, by decide⟩

end Resmix.Rrpc
