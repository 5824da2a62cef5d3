import Verif.Props.Collector
set_option autoImplicit false
/-
C71: malformed signed parcels and crashes of the server.
-/
namespace Resmix.Rrpc
open Resmix.Ecc
variable {μ : Type}

/-- Every parcel of a started or waiting task reached the collector; every started task has a parcel. -/
theorem collector_members (m : Int) (ttl : Nat) (lk : Str → Go μ) (P : Parcel → Prop) (evs : List CEv) (h : ∀ now p, CEv.parcel now p ∈ evs → P p)
    (tasks : GoMap Str (CTask μ)) (ht : ∀ e ∈ tasks, ∀ p ∈ e.2.parcels, P p) :
    ∀ t, COut.run t ∈ (collectorRun m ttl lk tasks evs).2 → (∀ p ∈ t.parcels, P p) ∧ t.parcels ≠ [] := by
  have herase : ∀ (l : GoMap Str (CTask μ)) (k : Str), ∀ e ∈ l.erase k, e ∈ l := by
    intro l k
    induction l with
    | nil => simp [GoMap.erase]
    | cons e l ih =>
      intro x hx
      unfold GoMap.erase at hx
      split at hx
      · exact List.mem_cons_of_mem _ (ih x hx)
      · rcases List.mem_cons.1 hx with rfl | hx
        · exact List.mem_cons_self
        · exact List.mem_cons_of_mem _ (ih x hx)
  have hlook : ∀ (l : GoMap Str (CTask μ)) (k : Str) v, l.lookup k = some v → ∃ e ∈ l, e.2 = v := by
    intro l k v
    induction l with
    | nil => intro h; simp [GoMap.lookup] at h
    | cons e l ih =>
      obtain ⟨a, b⟩ := e
      unfold GoMap.lookup
      split
      · intro h; exact ⟨_, List.mem_cons_self, by injection h⟩
      · intro h
        obtain ⟨e, he, hv⟩ := ih h
        exact ⟨e, List.mem_cons_of_mem _ he, hv⟩
  induction evs generalizing tasks with
  | nil => intro t h; simp [collectorRun] at h
  | cons e evs ih =>
    intro t hmem
    rw [collectorRun] at hmem
    simp only [List.mem_append] at hmem
    have hrest : ∀ now p, CEv.parcel now p ∈ evs → P p := fun now p hp => h now p (List.mem_cons_of_mem _ hp)
    cases e with
    | tick now =>
      simp only [collectorStep] at hmem
      rcases hmem with hm | hm
      · cases hm
      · exact ih hrest _ (fun e he => ht e (List.mem_filter.1 he).1) t hm
    | parcel now p =>
      have hp := h now p List.mem_cons_self
      simp only [collectorStep] at hmem
      cases hg : getOrCreateTask lk tasks now p with
      | error er =>
        rw [hg] at hmem
        rcases hmem with hm | hm
        · simp at hm
        · exact ih hrest _ ht t hm
      | ok r =>
        obtain ⟨v, tasks'⟩ := r
        rw [hg] at hmem
        simp only at hmem
        have hv : (∀ q ∈ v.parcels, P q) ∧ ∀ e ∈ tasks', ∀ q ∈ e.2.parcels, P q := by
          unfold getOrCreateTask at hg
          split at hg
          · cases hg
          · split at hg
            · next w hw =>
              injection hg with hg; injection hg with h1 h2
              subst h1 h2
              obtain ⟨e, he, rfl⟩ := hlook _ _ _ hw
              exact ⟨ht e he, ht⟩
            · injection hg with hg; injection hg with h1 h2
              subst h1 h2
              refine ⟨by simp, ?_⟩
              intro e he
              rcases List.mem_cons.1 he with rfl | he
              · simp
              · exact ht e (herase _ _ e he)
        have hv' : ∀ q ∈ v.parcels ++ [p], P q := by
          intro q hq
          rcases List.mem_append.1 hq with hq | hq
          · exact hv.1 q hq
          · rw [List.mem_singleton.1 hq]; exact hp
        split at hmem
        · rcases hmem with hm | hm
          · cases hm
          · refine ih hrest _ ?_ t hm
            intro e he
            rcases List.mem_cons.1 he with rfl | he
            · exact hv'
            · exact hv.2 e (herase _ _ e he)
        · rcases hmem with hm | hm
          · simp only [List.mem_singleton, COut.run.injEq] at hm
            subst hm
            exact ⟨hv', by simp⟩
          · exact ih hrest _ (fun e he => hv.2 e (herase _ _ e he)) t hm

theorem reconstructParcels_no_panic (C : RS) (st : Bool) (ps : List Parcel) (hne : ps ≠ [])
    (h : ∀ p ∈ ps, 0 ≤ p.relayIndex ∧ p.relayIndex < (C.k + C.m : Nat) ∧ p.WellShaped) (res : Go Bytes) (hr : ReconstructParcels C st ps res) :
    (∃ d, res = .ok d) ∨ ∃ c msg, res = .error (.err c msg) := by
  match ps, hne with
  | p :: rest, _ =>
    unfold ReconstructParcels at hr
    obtain ⟨size, hs, -⟩ := leUint32_ok p.messageLength (h p List.mem_cons_self).2.2.1
    obtain ⟨sh, hf, hsh⟩ := fill_shape C ((p :: rest).map fun p => (p.relayIndex, p.payload)) (by
      intro x hx
      obtain ⟨q, hq, rfl⟩ := List.mem_map.1 hx
      exact ⟨(h q hq).1, (h q hq).2.1, (h q hq).2.2.2⟩)
    simp only at hr
    rw [hs] at hr
    simp only at hr
    rw [hf] at hr
    simp only at hr
    obtain ⟨out, ho, rfl⟩ := hr
    have := AuthReconstruct_no_panic C st sh size hsh.1 out ho
    cases out with
    | ok d => exact Or.inl ⟨d, rfl⟩
    | error e => cases e with
      | panic => exact absurd rfl this
      | _ => exact Or.inr ⟨_, _, rfl⟩

theorem signOutput_safe (S : SigScheme) (H : Merkle.HashFn) (cod : Codec) (sk : S.Sk) (saved : ExchangeNote) (rs : Responses) (hne : rs.1 ≠ [])
    (hlen : rs.1.length ≤ 2 ^ 64) : ∃ out, signOutput S H cod sk saved rs = .ok out ∧ out.length = rs.1.length := by
  obtain ⟨l, shared⟩ := rs
  match l, hne, hlen with
  | r0 :: rest, _, hlen =>
    simp only at hlen
    have : ∃ notes, signResponses S H cod sk shared (r0 :: rest).length (r0.note.getD saved) = .ok notes ∧ notes.length = (r0 :: rest).length := by
      unfold signResponses
      obtain ⟨h', e, -⟩ := merkleSign_ok S H cod sk ((List.range (r0 :: rest).length).map fun i => .response (if shared then 0 else i))
        (allocNote (r0.note.getD saved)) (by simpa using hlen)
      simp only [bind, Except.bind]
      rw [e]
      exact ⟨_, rfl, by simp⟩
    obtain ⟨notes, h1, h2⟩ := this
    refine ⟨_, by simp only [signOutput]; rw [h1], ?_⟩
    rw [List.length_zipWith, h2, Nat.min_self]

/-- C71, proved for parcels of the right shape. Whatever parcels (signed by anybody, of any calls, with any contents, wrong lengths, wrong or
mixed pieces, repeated indices, unknown methods, certificates already in the notes) reach the collector, as long as each has a length
field of 4 bytes or more and 36 or more pieces, no task it starts panics, even if the coder is stopped meanwhile: the task sends one
response to every server. (`validateParcel` guarantees the bound on the index; the handler is assumed to return.) -/
theorem C71_well_shaped_partial (S : SigScheme) (H : Merkle.HashFn) (cod : Codec) (sk : S.Sk) (net : Network) (C : RS) (hC : NewCoordinator net (.ok C))
    (hnet : net.serverAddresses.length ≤ 2 ^ 64) (lookup : Str → Go μ) (evs : List CEv)
    (hsh : ∀ now p, CEv.parcel now p ∈ evs → 0 ≤ p.relayIndex ∧ p.relayIndex < net.serverAddresses.length ∧ p.WellShaped)
    (stopped : Bool) (handler : μ → Str → Bytes → Except SvcErr Bytes) (buf : Bytes) (t : CTask μ) (ht : COut.run t ∈ collector net lookup evs)
    (res : Go (List CallStreamResponse)) (hr : TaskOutput S H cod sk C stopped net handler buf t res) :
    ∃ resps, res = .ok resps ∧ resps.length = net.serverAddresses.length := by
  obtain ⟨hk, hm, hn⟩ := coordinator_code hC
  have hkpos := C.kpos
  obtain ⟨hp, hne⟩ := collector_members _ _ _ _ evs hsh [] (by simp) t ht
  obtain ⟨r, ⟨pl, hpl, hrun⟩, rfl⟩ := hr
  have herr : ∀ s, ∃ out, signOutput S H cod sk t.savedNote (errorResponses net (S.pub sk) t.savedNote s) = .ok out ∧ out.length = net.serverAddresses.length := by
    intro s
    have hl : (errorResponses net (S.pub sk) t.savedNote s).1.length = net.serverAddresses.length := by simp [errorResponses]
    obtain ⟨out, h1, h2⟩ := signOutput_safe S H cod sk t.savedNote (errorResponses net (S.pub sk) t.savedNote s)
      (List.length_pos_iff.1 (by rw [hl]; omega)) (by rw [hl]; exact hnet)
    exact ⟨out, h1, by rw [h2, hl]⟩
  rcases reconstructParcels_no_panic C stopped t.parcels hne (by rw [hn]; exact hp) pl hpl with ⟨d, rfl⟩ | ⟨c, msg, rfl⟩
  · simp only at hrun
    cases hh : handler t.method t.savedNote.calluuid d with
    | error e =>
      rw [hh] at hrun
      subst hrun
      exact herr _
    | ok bytes =>
      rw [hh] at hrun
      obtain ⟨parts, hparts, hrun⟩ := hrun
      have hpp : (∃ ps, parts = .ok ps ∧ ps.length = net.serverAddresses.length) ∨ ∃ c msg, parts = .error (.err c msg) := by
        obtain ⟨enc, henc, rfl⟩ := hparts
        obtain ⟨sh, -, h2, h3⟩ := C40_round_trip C (buf ++ bytes)
        rcases h2 stopped enc henc with rfl | ⟨-, rfl⟩
        · left
          obtain ⟨out, ho, hf⟩ := mapM_go (List.range net.serverAddresses.length) (mkReply (le32 (buf ++ bytes).length) sh) (fun _ _ => True) (by
            intro i hi
            unfold mkReply
            rw [eccPayload_eq sh i (fun row hrow => by rw [(h3.2.1 row hrow).1, hn]; exact List.mem_range.1 hi)]
            exact ⟨_, rfl, trivial⟩)
          exact ⟨out, ho, by rw [← hf.length_eq, List.length_range]⟩
        · right; exact ⟨_, _, rfl⟩
      rcases hpp with ⟨ps, rfl, hpl⟩ | ⟨c, msg, rfl⟩
      · simp only at hrun
        subst hrun
        have hl : (replyResponses (S.pub sk) t.savedNote ps).1.length = net.serverAddresses.length := by simp [replyResponses, hpl]
        obtain ⟨out, h1, h2⟩ := signOutput_safe S H cod sk t.savedNote (replyResponses (S.pub sk) t.savedNote ps)
          (List.length_pos_iff.1 (by rw [hl]; omega)) (by rw [hl]; exact hnet)
        exact ⟨out, h1, by rw [h2, hl]⟩
      · simp only at hrun
        subst hrun
        exact herr _
  · simp only at hrun
    subst hrun
    exact herr _

theorem mapM_panic {α β : Type} (f : α → Go β) (l : List α) (h : ∀ a ∈ l, ∀ e, f a = .error e → e = .panic) (hx : ∃ a ∈ l, ∃ e, f a = .error e) :
    l.mapM f = .error .panic := by
  induction l with
  | nil => obtain ⟨a, ha, -⟩ := hx; cases ha
  | cons a l ih =>
    rw [List.mapM_cons]
    cases hf : f a with
    | error e => rw [h a List.mem_cons_self e hf]; rfl
    | ok b =>
      obtain ⟨x, hx1, e, he⟩ := hx
      rcases List.mem_cons.1 hx1 with rfl | hx1
      · rw [hf] at he; cases he
      · rw [ih (fun a ha => h a (List.mem_cons_of_mem _ ha)) ⟨x, hx1, e, he⟩]
        rfl

/-- C71 fails in general. Anybody with a key pair makes one parcel per relay for a known method, the first of which has a length field of fewer than 4
bytes, or all of which have fewer than 36 pieces, and signs them in the usual way. The server accepts every one of them, and the task
they start panics, whatever the handler; the panic is not recovered. -/
theorem C71_malformed_parcel_refuted (S : SigScheme) (H : Merkle.HashFn) (cod : Codec) (ak sk : S.Sk) (net : Network) (C : RS) (hC : NewCoordinator net (.ok C))
    (hnet : 2 * net.serverAddresses.length ≤ 2 ^ 64) (hmaj : (net.serverAddresses.length : Int) < 2 * net.minimalRelayedParcels)
    (lookup : Str → Go μ) (u : Str) (ps : List Parcel) (hn : ps.length = net.serverAddresses.length)
    (hps : ∀ (i : Nat) (p : Parcel), ps[i]? = some p → p.relayIndex = (i : Int) ∧ p.signature = none ∧ p.note.senderMerkleProof = none ∧
      p.note.senderID = S.pub ak ∧ p.note.calluuid = u ∧ ∃ m, lookup p.method = .ok m)
    (hbad : (∃ p, ps.head? = some p ∧ p.messageLength.length < 4) ∨ ∀ p ∈ ps, p.payload.length < numChunks) :
    ∃ out, signRobust S H cod ak ps = .ok out ∧ out.length = ps.length ∧
      (∀ (i : Nat) (q : Parcel), out[i]? = some q → ∀ cache : Cache, (validateParcel S H cod cache false i q).1 = .ok ()) ∧
      ∃ t, runsOf u (collector net lookup (out.map (CEv.parcel 0))) = [t] ∧
        ∀ stopped handler buf res, TaskOutput S H cod sk C stopped net handler buf t res ↔ res = .error .panic := by
  obtain ⟨hk, hm, hkm⟩ := coordinator_code hC
  have hkpos := C.kpos
  obtain ⟨out, h1, h2, h3⟩ := C45_robust_call S H cod ak ps (by rw [hn]; exact hnet) (fun i p h => by
    obtain ⟨a, b, c, d, -, -⟩ := hps i p h; exact ⟨a, b, c, d⟩)
  refine ⟨out, h1, h2, fun i q hq => (h3 i q hq).2, ?_⟩
  have hq : ∀ (i : Nat) (q : Parcel), out[i]? = some q → ps[i]? = some q.unsigned := fun i q h => (h3 i q h).1
  have hu : ∀ q ∈ out, q.note.calluuid = u ∧ ∃ m, lookup q.method = .ok m := by
    intro q hqm
    obtain ⟨i, hi⟩ := List.getElem?_of_mem hqm
    obtain ⟨-, -, -, -, a, b⟩ := hps i _ (hq i q hi)
    exact ⟨a, b⟩
  have hcp : callParcels u (out.map (CEv.parcel 0)) = out := callParcels_map _ _ _ (fun q hqm => (hu q hqm).1)
  obtain ⟨-, -, -, -, hinv⟩ := collector_inv C.k hkpos 5000000000 lookup u (out.map (CEv.parcel 0))
    (timely_of_no_tick _ _ _ _ (fun now h => by obtain ⟨_, _, h⟩ := List.mem_map.1 h; cases h)) (by rw [hcp]; exact fun p hp => (hu p hp).2)
  rw [hcp] at hinv
  have hgr : groups C.k out = [out.take C.k] := by
    unfold groups
    rw [Nat.div_eq_of_lt_le (k := 1) (by omega) (by omega)]
    simp
  rw [hgr] at hinv
  have hcol : collector net lookup (out.map (CEv.parcel 0)) = (collectorRun (C.k : Int) 5000000000 lookup [] (out.map (CEv.parcel 0))).2 := by
    unfold collector; rw [hk]
  rw [hcol]
  obtain ⟨t, ts, ht, hts, htt⟩ := List.forall₂_cons_right_iff.1 hinv
  have hnil := List.forall₂_nil_right_iff.1 hts
  subst hnil
  refine ⟨t, htt, ?_⟩
  obtain ⟨t1, -⟩ := ht
  have hrec : ∀ st res, ReconstructParcels C st t.parcels res ↔ res = .error .panic := by
    intro st res
    rw [t1]
    match hout : out, h2 with
    | [], h2 => simp at h2; omega
    | q :: rest, h2 =>
      obtain ⟨k', hk'⟩ : ∃ k', C.k = k' + 1 := ⟨C.k - 1, by omega⟩
      rw [hk', List.take_succ_cons]
      unfold ReconstructParcels
      simp only
      have hq0 := hq 0 q (by simp)
      rcases hbad with ⟨p, hp, hlen⟩ | hall
      · have : p = q.unsigned := by
          rw [List.head?_eq_getElem?, hq0] at hp; injection hp with hp; exact hp.symm
        rw [leUint32_short q.messageLength (by rw [this] at hlen; exact hlen)]
      · cases hs : leUint32 q.messageLength with
        | error e =>
          have : e = .panic := by
            unfold leUint32 at hs
            split at hs
            · cases hs
            · injection hs with hs; exact hs.symm
          rw [this]
        | ok size =>
          simp only
          have hpl : q.payload.length < numChunks := hall q.unsigned (List.mem_of_getElem? hq0)
          have hput : ∀ ri, putIntoShards (newShards C) ri q.payload = .error .panic := by
            intro ri
            unfold putIntoShards
            apply mapM_panic
            · rintro ⟨row, i⟩ - e he
              simp only [bind, Except.bind, goIndex, goSet] at he
              split at he
              · next h => split at h <;> simp_all
              · split at he
                · injection he with he; exact he.symm
                · split at he
                  · cases he
                  · injection he with he; exact he.symm
            · refine ⟨(List.replicate (C.k + C.m) [], q.payload.length), ?_, .panic, ?_⟩
              · rw [List.mem_zipIdx_iff_getElem?]
                simp [newShards, hpl]
              · simp [goIndex, bind, Except.bind]
          rw [List.map_cons]
          unfold fillShards
          rw [List.foldlM_cons, hput]
          rfl
  intro st handler buf res
  unfold TaskOutput RunTask
  constructor
  · rintro ⟨r, ⟨pl, hpl, hr⟩, rfl⟩
    rw [(hrec st pl).1 hpl] at hr
    simp only at hr
    subst hr; rfl
  · rintro rfl
    exact ⟨.error .panic, ⟨.error .panic, (hrec st _).2 rfl, rfl⟩, rfl⟩

/-- The hypotheses of the refutation are met by parcels with a single piece, for any number of servers. -/
example (S : SigScheme) (ak : S.Sk) (lookup : Str → Go μ) (m : μ) (hm : lookup [47, 65] = .ok m) (n : Nat) :
    (∀ (i : Nat) (p : Parcel), ((List.range n).map (exampleParcel (S.pub ak)))[i]? = some p → p.relayIndex = (i : Int) ∧ p.signature = none ∧
      p.note.senderMerkleProof = none ∧ p.note.senderID = S.pub ak ∧ p.note.calluuid = [1] ∧ ∃ m, lookup p.method = .ok m) ∧
    ∀ p ∈ (List.range n).map (exampleParcel (S.pub ak)), p.payload.length < numChunks := by
  constructor
  · intro i p h
    rw [List.getElem?_map] at h
    obtain ⟨j, hj, rfl⟩ := Option.map_eq_some_iff.1 h
    obtain ⟨_, h2⟩ := List.getElem?_eq_some_iff.1 hj
    have : j = i := by simpa using h2.symm
    subst this
    exact ⟨rfl, rfl, rfl, rfl, rfl, m, hm⟩
  · intro p h
    obtain ⟨j, -, rfl⟩ := List.mem_map.1 h
    simp [exampleParcel, numChunks]

/-- The numeric hypotheses of C53, C54 and C71 are met: five servers, tau = 2. -/
example : ∃ net C, NewCoordinator net (.ok C) ∧ 1 ≤ net.tau ∧ 1 ≤ net.maxErrors ∧ (net.serverAddresses.length : Int) + 1 < 2 * net.minimalRelayedParcels ∧
    2 * net.serverAddresses.length ≤ 2 ^ 64 := by
  let net := configNetwork [⟨[1], some [1]⟩, ⟨[2], some [2]⟩, ⟨[3], some [3]⟩, ⟨[4], some [4]⟩, ⟨[5], some [5]⟩]
  have hlen : net.serverAddresses.length = 5 := by simp [net, configNetwork, Network.new, Network.addServer, Network.sortStrings]
  have htau : net.tau = 2 := Network.new_tau _ _
  refine ⟨net, rsCode 4 1 (by decide) (by decide), ⟨.ok (rsCode 4 1 (by decide) (by decide)), ?_, rfl⟩, by omega, ?_, ?_, by omega⟩
  · unfold NewEcc Network.maxErrors
    rw [hlen, htau]
    rw [if_neg (by omega)]
    exact ⟨_, rfl, rfl, rfl⟩
  · unfold Network.maxErrors; omega
  · unfold Network.minimalRelayedParcels Network.maxErrors; rw [hlen, htau]; omega

/-- And the other way round for the second run (C53): three servers, tau = 3. -/
example : ∃ net C, NewCoordinator net (.ok C) ∧ 2 * net.minimalRelayedParcels ≤ (net.serverAddresses.length : Int) := by
  let net := Network.new 3 [⟨[1], some [1]⟩, ⟨[2], some [2]⟩, ⟨[3], some [3]⟩]
  have hlen : net.serverAddresses.length = 3 := by simp [net, Network.new, Network.addServer, Network.sortStrings]
  have htau : net.tau = 3 := Network.new_tau _ _
  refine ⟨net, rsCode 1 2 (by decide) (by decide), ⟨.ok (rsCode 1 2 (by decide) (by decide)), ?_, rfl⟩, ?_⟩
  · unfold NewEcc Network.maxErrors
    rw [hlen, htau]
    rw [if_neg (by omega)]
    exact ⟨_, rfl, rfl, rfl⟩
  · unfold Network.minimalRelayedParcels Network.maxErrors; rw [hlen, htau]; omega

end Resmix.Rrpc
