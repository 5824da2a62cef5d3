import Verif.Proofs.CallO
import Verif.Props.Tamper
set_option autoImplicit false
/-
C105: robust calls through all goroutines, channels and streams of clients, relays and servers (Model/CallSystem, Spec/CallSystem).
-/
namespace Resmix.Rrpc.CallSystem
open Resmix.Ecc
variable {μ : Type} {K m n : Nat} {cfg : Config μ K m n}

theorem succeeded_of {s : State μ K m n} (h : Inv cfg s) (hh : Honest cfg) {k : Fin K} (hr : robustRequest cfg.net ((s.taken k).map Answer.ev) ≠ none) :
    Succeeded cfg s k := by
  rcases (h.reply hh k).1 with h1 | ⟨r0, t, b, hj, hb, ht, hi, hl, hret⟩
  · exact (hr h1).elim
  · refine ⟨t.method, b, ⟨hl, t, ht, hi, r0, hj, ?_⟩, hb, hret⟩
    intro r hne
    cases hjr : s.jobs k r with
    | none => rfl
    | some j => exact (hne (h.one_job hh (k := k) (by rw [hjr]; rfl) (by rw [hj]; rfl))).elim

/-- **C105 (safety).** Whatever the order of the steps of all goroutines and streams, whatever is cancelled, timed out or cleaned up: no process crashes,
no call's method is run more than once, and a call that is not cancelled and has stopped waiting returns exactly what the method did in its one
run on the call's arguments. -/
theorem C105_only_true_results (hh : Honest cfg) (es : List (Event μ K m n)) (hes : ∀ e ∈ es, e.Proper) (s : State μ K m n) (hr : Run cfg init es s) :
    s.crashed = false ∧ ∀ k, (tasksFor cfg s k).length ≤ 1 ∧ (s.cancelled k = false → loopResult cfg s k ≠ none → Succeeded cfg s k) := by
  have h := reachable_inv hh hes hr
  refine ⟨h.alive, fun k => ⟨h.one_task hh k, fun hc hl => succeeded_of h hh ?_⟩⟩
  unfold loopResult at hl
  rw [hc] at hl
  simpa using hl

/-- **C105 (termination).** In every execution the goroutines and streams together make at most `K n (10 n + 11)` steps for `K` calls through `n` relays
(nobody polls or retries), and from every state they come to rest by themselves. -/
theorem C105_bounded_work (hh : Honest cfg) (es : List (Event μ K m n)) (hes : ∀ e ∈ es, e.Proper) (s : State μ K m n) (hr : Run cfg init es s) :
    es.countP (fun e => decide e.Own) ≤ K * (n * (10 * n + 11)) ∧
    ∃ es' s', Run cfg s es' s' ∧ (∀ e ∈ es', e.Own ∧ e.Proper) ∧ AtRest cfg s' := by
  have h1 := (inv_init cfg).work_run hh hes hr
  rw [work_init] at h1
  exact ⟨by omega, (reachable_inv hh hes hr).rest hh⟩

/-- **C105 (liveness).** Once everything is at rest, a call that was made and not cancelled, whose parcels no cleanup of the server's collector struck,
and whose response at most `MaxErrors` relays ignored, has returned what the method did. What is missing: see `C105_overtaken_refuted`. -/
theorem C105_calls_complete_partial (hh : Honest cfg) (es : List (Event μ K m n)) (hes : ∀ e ∈ es, e.Proper) (s : State μ K m n) (hr : Run cfg init es s)
    (hrest : AtRest cfg s) (k : Fin K) (hb : s.begun k = true) (hc : s.cancelled k = false)
    (ht : Timely cfg.net.minimalRelayedParcels.toNat 5000000000 (cfg.uuid k) (s.history (cfg.calls k).server))
    (hi : ((ignoredBy s k).card : Int) ≤ cfg.net.maxErrors) : Succeeded cfg s k := by
  have h := reachable_inv hh hes hr
  have h1 := h.at_rest hh hrest
  obtain ⟨r0, t, b, hj⟩ := h.ran hh h1 hb ht
  exact succeeded_of h hh (h.returned hh h1 hc hj hi)

/-- **C105 (liveness, calm executions).** If no relay routes a call's response while its handler is still between passing the parcel on and recording the
client, and no relay's cleanup strikes its record, then at most `MaxErrors` relays ignore the response, so the call returns. -/
theorem C105_calm_calls_complete_partial (hh : Honest cfg) (es : List (Event μ K m n)) (hes : ∀ e ∈ es, e.Proper) (s : State μ K m n) (k : Fin K)
    (hr : CalmRun cfg k init es s) (hrest : AtRest cfg s) (hb : s.begun k = true) (hc : s.cancelled k = false)
    (ht : Timely cfg.net.minimalRelayedParcels.toNat 5000000000 (cfg.uuid k) (s.history (cfg.calls k).server)) : Succeeded cfg s k := by
  have h := reachable_inv hh hes hr.run
  have h1 := h.at_rest hh hrest
  obtain ⟨r0, t, b, hj⟩ := h.ran hh h1 hb ht
  have hcalm := Calm.run hr (calm_init cfg k) (inv_init cfg) hh hes
  have ht' : t ∈ tasksFor cfg s k := by rw [h.the_task hh hj]; simp
  exact succeeded_of h hh (h.returned hh h1 hc hj (hcalm.few h hh ht'))

/-- From every reachable state there is a calm way to rest. -/
theorem C105_calm_rest (hh : Honest cfg) (es : List (Event μ K m n)) (hes : ∀ e ∈ es, e.Proper) (s : State μ K m n) (hr : Run cfg init es s) :
    ∃ es' s', (∀ k, CalmRun cfg k s es' s') ∧ (∀ e ∈ es', e.Own ∧ e.Proper) ∧ AtRest cfg s' :=
  (reachable_inv hh hes hr).rest_calm hh

/-- **C105, refuted in general.** In every honest system and for every call there is an execution without any failure, cancellation, cleanup or tick in
which the method runs once and the call nevertheless waits for ever: its responses overtake the records of the relays, which ignore them. -/
theorem C105_overtaken_refuted (hh : Honest cfg) (k : Fin K) : ∃ es s, Run cfg init (.begin k :: es) s ∧ (∀ e ∈ es, e.Own ∧ e.Proper) ∧ AtRest cfg s ∧
    s.begun k = true ∧ s.cancelled k = false ∧ (∃ t, tasksFor cfg s k = [t]) ∧ loopResult cfg s k = none :=
  overtaken hh k

/-! ### Such systems exist -/

/-- Parcels as `RobustCall` makes them. -/
theorem honest_call_exists (S : SigScheme) (H : Merkle.HashFn) (cod : Codec) (sk : S.Sk) (net : Network) (C : RS) (hC : NewCoordinator net (.ok C))
    (hn : net.serverAddresses.length = n) (hsmall : 2 * n ≤ 2 ^ 64) (method : Str) (note : ExchangeNote) (hs : note.senderID = S.pub sk)
    (h1 : note.senderMerkleProof = none) (args : Bytes) (hlen : args.length < 2 ^ 32) :
    ∃ parcels : Fin n → Parcel, ∃ ps, RequestIntoRobust C false net method note args (.ok ps) ∧ signRobust S H cod sk ps = .ok (List.ofFn parcels) := by
  obtain ⟨ps, out, a, b, c, -⟩ := C74_honest_parcel_accepted_partial S H cod sk net C hC method note hs h1 args hlen (by rw [hn]; exact hsmall)
  refine ⟨fun i => out[i.1]'(by rw [c, hn]; exact i.2), ps, (a _).2 rfl, ?_⟩
  rw [b]
  congr 1
  apply List.ext_getElem
  · simp [c, hn]
  · intros; simp

theorem CalmRun.append {k : Fin K} {s1 s2 s3 : State μ K m n} {es es' : List (Event μ K m n)} (a : CalmRun cfg k s1 es s2) (b : CalmRun cfg k s2 es' s3) :
    CalmRun cfg k s1 (es ++ es') s3 := by
  induction a with
  | nil s => exact b
  | cons st hc _ ih => exact .cons st hc (ih b)

/-- Three keys. -/
def exKey (i : Fin 3) : Merkle.Digest := ⟨List.replicate 32 (UInt8.ofNat (i.1 + 1)), by simp⟩

/-- Three servers, tau = 2. -/
def exNet : Network := Network.new 2 [⟨[1], some (exKey 0).1⟩, ⟨[2], some (exKey 1).1⟩, ⟨[3], some (exKey 2).1⟩]

theorem exNet_addresses : exNet.serverAddresses = [[1], [2], [3]] := by
  simp only [exNet, Network.new, Network.addServer, List.foldl, Network.sortStrings]
  rw [List.mergeSort_of_pairwise]
  · simp
  · simp; decide

theorem exNet_tau : exNet.tau = 2 := Network.new_tau _ _

theorem exNet_host (i : Fin 3) : exNet.getHostname (exKey i).1 = [UInt8.ofNat (i.1 + 1)] := by
  have h : exNet.pkToHost = GoMap.insert (GoMap.insert (GoMap.insert [] (exKey 0).1 [1]) (exKey 1).1 [2]) (exKey 2).1 [3] := by
    simp [exNet, Network.new, Network.addServer]
  unfold Network.getHostname
  rw [h]
  fin_cases i <;> decide

noncomputable def exCode : RS := rsCode 2 1 (by decide) (by decide)

theorem exNet_code : NewCoordinator exNet (.ok exCode) := by
  refine ⟨.ok exCode, ?_, rfl⟩
  unfold NewEcc Network.maxErrors
  rw [exNet_tau, exNet_addresses]
  simp only [List.length_cons, List.length_nil]
  rw [if_neg (by omega)]
  exact ⟨_, rfl, rfl, rfl⟩

/-- Two calls of two clients to the first and the last server; every server has a method "f" of any kind. -/
theorem exists_honest_net : ∃ cfg : Config Unit 2 2 3, Honest cfg ∧ cfg.net = exNet := by
  have note : ∀ k : Fin 2, ∃ nt : ExchangeNote, nt.senderID = toySig.pub (exKey 1) ∧ nt.receiverID = toySig.pub (exKey (if k = 0 then 0 else 2)) ∧
      nt.senderMerkleProof = none ∧ nt.receiverMerkleProof = none ∧ nt.calluuid = [UInt8.ofNat k.1] := fun k => ⟨⟨_, _, none, none, _⟩, rfl, rfl, rfl, rfl, rfl⟩
  choose nt n1 n2 n3 n4 n5 using note
  have parcels : ∀ k : Fin 2, _ := fun k => honest_call_exists (n := 3) toySig toyHash toyCodec (exKey 1) exNet exCode exNet_code
    (by rw [exNet_addresses]; rfl) (by decide) [102] (nt k) (n1 k) (n3 k) (List.replicate k.1 7) (by
      have := k.2
      rw [List.length_replicate]; omega)
  choose P hP using parcels
  refine ⟨{ S := toySig, H := toyHash, cod := toyCodec, net := exNet, C := exCode, key := exKey, lookup := fun _ u => if u = [102] then .ok () else .error .panic
            window := 1, text := fun _ => []
            calls := fun k => ⟨k, if k = 0 then 0 else 2, exKey 1, [102], nt k, List.replicate k.1 7, P k⟩ }, ?_, rfl⟩
  refine ⟨exNet_code, by rw [exNet_addresses]; rfl, by rw [exNet_addresses]; decide, by rw [exNet_tau]; decide, ?_, by decide, Nat.one_pos, ?_, ?_⟩
  · unfold Network.minimalRelayedParcels Network.maxErrors
    rw [exNet_tau, exNet_addresses]; decide
  · intro k k' h
    simp only [Config.uuid, n5] at h
    fin_cases k <;> fin_cases k' <;> simp at h ⊢
  · intro k
    refine ⟨n1 k, ⟨n3 k, n4 k⟩, ?_, hP k, ⟨(), by simp⟩, n2 k, ?_⟩
    · have := k.2
      dsimp only
      rw [List.length_replicate]; omega
    · have h1 : (nt k).receiverID = (exKey (if k = 0 then 0 else 2)).1 := n2 k
      dsimp only
      rw [h1, exNet_host]
      have : ∀ l, l = [[1], [2], [3]] → l[(if k = 0 then (0 : Fin 3) else 2)]? = some [UInt8.ofNat ((if k = 0 then (0 : Fin 3) else 2).1 + 1)] := by
        rintro l rfl
        fin_cases k <;> decide
      exact this _ exNet_addresses

theorem exists_honest : ∃ cfg : Config Unit 2 2 3, Honest cfg := exists_honest_net.imp fun _ h => h.1

/-- The hypotheses of the C105 theorems are met together: in an honest system both calls are made at the same time, everything comes calmly to rest,
and both calls have returned. -/
theorem calm_example : ∃ (cfg : Config Unit 2 2 3) (es : List (Event Unit 2 2 3)) (s : State Unit 2 2 3), Honest cfg ∧ (∀ e ∈ es, e.Proper) ∧ Run cfg init es s ∧
    AtRest cfg s ∧ ∀ k, s.begun k = true ∧ CalmRun cfg k init es s ∧ Succeeded cfg s k := by
  obtain ⟨cfg, hh⟩ := exists_honest
  let s1 : State Unit 2 2 3 := { (init : State Unit 2 2 3) with
    begun := Function.update (init : State Unit 2 2 3).begun 0 true
    parcels := Function.update (init : State Unit 2 2 3).parcels (.ask 0) ((List.finRange 3).map fun r => (0, r)) }
  let s2 : State Unit 2 2 3 := { s1 with
    begun := Function.update s1.begun 1 true
    parcels := Function.update s1.parcels (.ask 1) ((List.finRange 3).map fun r => (1, r)) }
  have st1 : Step cfg init (.begin 0) s1 := .begin init 0 rfl rfl
  have st2 : Step cfg s1 (.begin 1) s2 := .begin s1 1 rfl (by simp [s1, init])
  have r12 : Run cfg init [.begin 0, .begin 1] s2 := .cons st1 (.cons st2 (.nil _))
  obtain ⟨es, s, hcalm, hown, hrest⟩ := C105_calm_rest hh [.begin 0, .begin 1] (by simp [Event.Proper]) s2 r12
  have hall : ∀ k, CalmRun cfg k init ([.begin 0, .begin 1] ++ es) s := fun k => CalmRun.append (.cons st1 trivial (.cons st2 trivial (.nil _))) (hcalm k)
  have hprop : ∀ e ∈ [.begin 0, .begin 1] ++ es, e.Proper := by
    intro e he
    rcases List.mem_append.1 he with he | he
    · simp at he; rcases he with rfl | rfl <;> trivial
    · exact (hown e he).2
  obtain ⟨hc, hb⟩ := cancelled_run (hcalm 0).run (fun e he => (hown e he).1)
  have hb' : ∀ k, s.begun k = true := by
    intro k; rw [hb]
    fin_cases k <;> simp [s2, s1]
  have ht : NoTick s := NoTick.run (hall 0).run (by intro d now; simp [init]) (by
    intro d now hm
    rcases List.mem_append.1 hm with h | h
    · simp at h
    · exact (hown _ h).1)
  refine ⟨cfg, _, s, hh, hprop, (hall 0).run, hrest, fun k => ⟨hb' k, hall k, ?_⟩⟩
  exact C105_calm_calls_complete_partial hh _ hprop s k (hall k) hrest (hb' k) (by rw [hc]; rfl) (timely_of_no_tick _ _ _ _ (ht _))

end Resmix.Rrpc.CallSystem
