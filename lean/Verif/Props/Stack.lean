import Verif.Proofs.StackH
import Verif.Props.SystemLive
import Verif.Proofs.VerifierSeq
set_option autoImplicit false
/-
C112, C113: the whole system over its call layer. Executions as in Model/Stack; the clients' behaviour as in C64, C87, C88 (Spec/System), read off their calls.
-/
namespace Resmix.Stack
open Resmix.System (Submission Opens Clients Orderly AllOrderly Connected onChain clientOnions)
variable {ζ μ : Type}

/-- C112. For every cascade whose servers have dialled each other, and every execution of the servers, their senders and the connections under them in which in every
round all clients keep to the protocol and the connections are used properly: no server crashes, and whenever the last mix of a chain returns its messages in a
round, they are, with multiplicities, the plaintexts submitted over that chain in that round. -/
theorem C112_safe {c : Config ζ μ} {servers : List Str} {L : Nat} (hS : Serves c) (hL : 0 < L) (ht : Topology.createCascade servers L = .ok c.sys.topo)
    (hconn : Connected c.sys servers) {conn : Str → Bool} {evs : List (Event ζ μ)} {s : State ζ μ} (hrun : ProperRun c (init conn) evs s)
    (hall : AllOrderly c.sys L (clientCalls evs)) :
    (∀ h, (s.servers h).crashed = false) ∧
    ∀ r, r < 2 ^ 32 → ∀ subs, Opens c.sys r L subs → Clients c.sys.topo subs r (clientCalls evs) →
      (∀ ch last out, c.sys.topo.mixAt (L - 1) ch = some last → Returns s last.hostname r last.name out → out.Perm ((onChain subs ch).map (·.msg))) ∧
      (∀ outs : Nat → List Bytes,
        (∀ ch, ch < servers.length → ∃ last, c.sys.topo.mixAt (L - 1) ch = some last ∧ Returns s last.hostname r last.name (outs ch)) →
        ((List.range servers.length).flatMap outs).Perm (subs.map (·.msg))) := by
  obtain ⟨evs', a, T, t⟩ := track_run hS hL ht hconn hrun hall
  refine ⟨t.alive hL ht hconn hall, fun r hr subs hop hcl => ?_⟩
  rw [← t.clients] at hcl
  obtain ⟨h1, h2⟩ := System.C64_end_to_end hL ht hr hop t.run (clients_iff.1 hcl)
  have hret : ∀ h n out, Returns s h r n out → System.Returns a h r n out := by
    intro h n out hh
    unfold Returns at hh
    rw [← t.sim.servers] at hh
    exact hh
  refine ⟨fun ch last out hl ho => h1 ch last out hl (hret _ _ _ ho), fun outs ho => h2 outs fun ch hch => ?_⟩
  obtain ⟨last, h3, h4⟩ := ho ch hch
  exact ⟨last, h3, hret _ _ _ h4⟩

/-- An execution followed by another. -/
theorem ProperRun.append {c : Config ζ μ} {s0 s1 s2 : State ζ μ} {es es' : List (Event ζ μ)} (h : ProperRun c s0 es s1) (h' : ProperRun c s1 es' s2) :
    ProperRun c s0 (es ++ es') s2 := by
  induction h' with
  | nil => simpa using h
  | snoc _ hp hst ih => rw [← List.append_assoc]; exact ih.snoc hp hst

/-- An execution that loses nothing is proper. -/
theorem LosslessRun.proper {c : Config ζ μ} {r : Nat} {s0 s : State ζ μ} {es : List (Event ζ μ)} (h : LosslessRun c r s0 es s) : ProperRun c s0 es s := by
  induction h with
  | nil => exact .nil
  | snoc _ hp _ hst ih => exact ih.snoc hp hst

/-- As long as there is something to do it can be done, so a bound on the number of steps means that rest is reached. -/
theorem reach_rest {c : Config ζ μ} {s : State ζ μ} {N : Nat} (hN : ∀ es s', ProperRun c s es s' → (∀ e ∈ es, Quiet e = true) → es.countP Own ≤ N) :
    ∃ es s', ProperRun c s es s' ∧ (∀ e ∈ es, Own e = true) ∧ AtRest c s' := by
  by_contra hno
  push Not at hno
  have : ∀ n, ∃ es s', ProperRun c s es s' ∧ (∀ e ∈ es, Own e = true) ∧ es.length = n := by
    intro n
    induction n with
    | zero => exact ⟨[], s, .nil, by simp, rfl⟩
    | succ n ih =>
      obtain ⟨es, s', h1, h2, h3⟩ := ih
      have h4 := hno es s' h1 h2
      unfold AtRest at h4
      push Not at h4
      obtain ⟨e, s2, h5, h6, h7⟩ := h4
      refine ⟨es ++ [e], s2, h1.snoc h6 h7, ?_, by simp [h3]⟩
      intro e' he'
      rcases List.mem_append.1 he' with he' | he'
      · exact h2 e' he'
      · rw [List.mem_singleton] at he'
        subst he'
        exact h5
  obtain ⟨es, s', h1, h2, h3⟩ := this (N + 1)
  have := hN es s' h1 fun e he => by have := h2 e he; cases e <;> simp_all [Own, Quiet]
  rw [List.countP_eq_length.2 h2] at this
  omega

/-- C113. Take any execution of the system over its call layer in which the connections were used properly, all clients keep to the protocol, no request of round `r`
found the round closed so far, the round is open at every server, and the clients have sent all onions of the round. From then on, with no further client calls and
the connections used properly, however the goroutines are scheduled: the system makes only a bounded number of steps, it can always go on until nothing is left to do,
and when nothing is left to do the last mix of every chain with a submission returns the plaintexts submitted over that chain. -/
theorem C113_round_completes {c : Config ζ μ} {servers : List Str} {L : Nat} (hS : Serves c) (hL : 0 < L)
    (ht : Topology.createCascade servers L = .ok c.sys.topo) (hconn : Connected c.sys servers) (hcpu : ∀ h r, 0 < (c.sys.env h r).nCPU)
    (htask : ∀ h r, 0 < (c.sys.env h r).taskCap) {r : Nat} (hr : r < 2 ^ 32) (hout : ∀ h, 0 < (c.sys.env h r).outCap)
    {subs : List Submission} (hop : Opens c.sys r L subs) {conn : Str → Bool} {evs : List (Event ζ μ)} {s : State ζ μ}
    (hrun : LosslessRun c r (init conn) evs s) (hall : AllOrderly c.sys L (clientCalls evs)) (hcl : Clients c.sys.topo subs r (clientCalls evs))
    (ho : Orderly c.sys.topo r (clientCalls evs)) (hopen : ∀ h ∈ servers, (s.servers h).rounds.lookup r ≠ none)
    (hsent : ∀ ch first, c.sys.topo.mixAt 0 ch = some first → (clientOnions (clientCalls evs) r first.name).Perm ((onChain subs ch).map (·.onion))) :
    (∃ N, ∀ es s', ProperRun c s es s' → (∀ e ∈ es, Quiet e = true) → es.countP Own ≤ N) ∧
    (∀ es s', ProperRun c s es s' → (∀ e ∈ es, Quiet e = true) →
      ∃ es' s'', ProperRun c s' es' s'' ∧ (∀ e ∈ es', Own e = true) ∧ AtRest c s'') ∧
    ∀ es s', ProperRun c s es s' → (∀ e ∈ es, Quiet e = true) → AtRest c s' → ∀ ch last, c.sys.topo.mixAt (L - 1) ch = some last → onChain subs ch ≠ [] →
      ∃ out, Returns s' last.hostname r last.name out ∧ out.Perm ((onChain subs ch).map (·.msg)) := by
  obtain ⟨evs', a, T, t, hl⟩ := track_lossless hS hL ht hconn hrun hall
  have hall' : ∀ es : List (Event ζ μ), (∀ e ∈ es, Quiet e = true) → AllOrderly c.sys L (clientCalls (evs ++ es)) := by
    intro es hq
    rw [clientCalls_append, clientCalls_quiet hq, List.append_nil]; exact hall
  refine ⟨steps_bounded hS hL ht hconn t hall, ?_, ?_⟩
  · intro es s' h1 h2
    obtain ⟨es', a', T', t', -⟩ := t.go hS hL ht hconn hall h1 h2
    obtain ⟨N, hN⟩ := steps_bounded hS hL ht hconn t' (hall' es h2)
    exact reach_rest hN
  · intro es s' h1 h2 hrest ch last hm hs
    obtain ⟨es', a', T', t', h3, -, h4⟩ := t.go hS hL ht hconn hall h1 h2
    obtain ⟨-, hrest'⟩ := rest_abs hS hL ht hconn hcpu htask t' (hall' es h2) hrest
    have hallA := t.orderly hall
    have hclA : Clients c.sys.topo subs r evs' := clients_iff.1 (by rw [t.clients]; exact hcl)
    have hoA : Orderly c.sys.topo r evs' := orderly_iff.1 (by rw [t.clients]; exact ho)
    have hopenA : ∀ h ∈ servers, (a.servers h).rounds.lookup r ≠ none := by rw [t.sim.servers]; exact hopen
    have hsentA : ∀ ch first, c.sys.topo.mixAt 0 ch = some first → (clientOnions evs' r first.name).Perm ((onChain subs ch).map (·.onion)) := by
      intro ch first hf
      rw [← onions_clients, t.clients]
      exact hsent ch first hf
    have hcA : (∀ h, 0 < (c.sys.env h r).nCPU) := fun h => hcpu h r
    obtain ⟨-, -, h5⟩ := System.C87_round_completes hL ht hconn hr hcA (fun h => htask h r) hout hop hl hallA hclA hoA hopenA hsentA
    obtain ⟨out, h6, h7⟩ := h5 es' a' h3 h4 hrest' ch last hm hs
    refine ⟨out, ?_, h7⟩
    unfold System.Returns at h6
    rw [t'.sim.servers] at h6
    exact h6

/-- A step of the system itself is quiet. -/
theorem quiet_of_own {e : Event ζ μ} (h : Own e = true) : Quiet e = true := by
  cases e <;> first | rfl | cases h

/-- C112. Call ids are used properly whenever the senders of two rounds of a server never call the same server at the same time. -/
theorem C112_senders_apart_proper {c : Config ζ μ} {servers : List Str} {L : Nat} (hS : Serves c) (hL : 0 < L)
    (ht : Topology.createCascade servers L = .ok c.sys.topo) (hconn : Connected c.sys servers) {conn : Str → Bool} {evs : List (Event ζ μ)} {s : State ζ μ}
    (hrun : RunWith c (Alone c) (init conn) evs s) (hall : AllOrderly c.sys L (clientCalls evs)) : ProperRun c (init conn) evs s :=
  (proper_run_with hS hL ht hconn (track_init c conn) (makers_init conn) hrun hall fun _ _ _ _ _ _ _ _ _ k ha => proper_of_alone k ha).1

/-- Calm steps of an execution in which only one round is opened are proper. -/
theorem one_round_go {c : Config ζ μ} {servers : List Str} {L : Nat} (hS : Serves c) (hL : 0 < L)
    (ht : Topology.createCascade servers L = .ok c.sys.topo) (hconn : Connected c.sys servers) {conn : Str → Bool} {evs es : List (Event ζ μ)} {s s' : State ζ μ}
    {evs' : List System.Event} {a : System.State} {T : List (Loc × Sender.Request)} (t : Track c conn evs s evs' a T) {own : Str → Str → Nat → Nat} (k : Makers s own)
    (hrun : RunWith c (Calm c) s es s') (hall : AllOrderly c.sys L (clientCalls (evs ++ es))) {r : Nat} (ho : OnlyRound r (clientCalls (evs ++ es))) :
    ProperRun c s es s' ∧ ∃ evs1 a1 T1 own1, Track c conn (evs ++ es) s' evs1 a1 T1 ∧ Makers s' own1 := by
  refine proper_run_with hS hL ht hconn t k hrun hall fun es1 s1 evs1 a1 T1 own1 e hpre t1 k1 ha => ?_
  obtain ⟨rest, rfl⟩ := hpre
  rw [← List.append_assoc, clientCalls_append] at hall ho
  refine proper_of_alone k1 (alone_of_only hL ht t1 (allOrderly_init hall) k1 (r := r) (fun h r' loads order hm => ho h r' loads order (List.mem_append_left _ hm)) ha)

/-- C112. If only one round is ever opened, nothing need be assumed about call ids: C112_safe holds of every execution in which no cleanup finds a call older than the
time-out. -/
theorem C112_one_round {c : Config ζ μ} {servers : List Str} {L : Nat} (hS : Serves c) (hL : 0 < L) (ht : Topology.createCascade servers L = .ok c.sys.topo)
    (hconn : Connected c.sys servers) {conn : Str → Bool} {evs : List (Event ζ μ)} {s : State ζ μ} (hrun : RunWith c (Calm c) (init conn) evs s)
    (hall : AllOrderly c.sys L (clientCalls evs)) {r : Nat} (honly : OnlyRound r (clientCalls evs)) :
    (∀ h, (s.servers h).crashed = false) ∧
    (r < 2 ^ 32 → ∀ subs, Opens c.sys r L subs → Clients c.sys.topo subs r (clientCalls evs) →
      ∀ ch last out, c.sys.topo.mixAt (L - 1) ch = some last → Returns s last.hostname r last.name out → out.Perm ((onChain subs ch).map (·.msg))) := by
  have h := (one_round_go hS hL ht hconn (track_init c conn) (makers_init conn) hrun hall honly).1
  obtain ⟨h1, h2⟩ := C112_safe hS hL ht hconn h hall
  exact ⟨h1, fun hr subs hop hcl => (h2 r hr subs hop hcl).1⟩

/-- A proper step is calm. -/
theorem calm_of_proper {c : Config ζ μ} {s : State ζ μ} {e : Event ζ μ} (h : Proper c s e) : Calm c s e := by
  cases e with
  | conn h0 h' ev => cases ev <;> first | trivial | exact h
  | _ => trivial

/-- C113. If only one round is ever opened, nothing need be assumed about call ids: C113_round_completes holds with the only condition that no cleanup finds a call
older than the time-out; rest means that no step but a client's call and the cleanup's look at a call is possible. -/
theorem C113_one_round {c : Config ζ μ} {servers : List Str} {L : Nat} (hS : Serves c) (hL : 0 < L)
    (ht : Topology.createCascade servers L = .ok c.sys.topo) (hconn : Connected c.sys servers) (hcpu : ∀ h r, 0 < (c.sys.env h r).nCPU)
    (htask : ∀ h r, 0 < (c.sys.env h r).taskCap) {r : Nat} (hr : r < 2 ^ 32) (hout : ∀ h, 0 < (c.sys.env h r).outCap)
    {subs : List Submission} (hop : Opens c.sys r L subs) {conn : Str → Bool} {evs : List (Event ζ μ)} {s : State ζ μ}
    (hrun : RunWith c (fun s e => Calm c s e ∧ Keeps c r s e) (init conn) evs s) (hall : AllOrderly c.sys L (clientCalls evs))
    (honly : OnlyRound r (clientCalls evs)) (hcl : Clients c.sys.topo subs r (clientCalls evs))
    (ho : Orderly c.sys.topo r (clientCalls evs)) (hopen : ∀ h ∈ servers, (s.servers h).rounds.lookup r ≠ none)
    (hsent : ∀ ch first, c.sys.topo.mixAt 0 ch = some first → (clientOnions (clientCalls evs) r first.name).Perm ((onChain subs ch).map (·.onion))) :
    (∃ N, ∀ es s', RunWith c (Calm c) s es s' → (∀ e ∈ es, Quiet e = true) → es.countP Own ≤ N) ∧
    (∀ es s', RunWith c (Calm c) s es s' → (∀ e ∈ es, Quiet e = true) →
      ∃ es' s'', RunWith c (Calm c) s' es' s'' ∧ (∀ e ∈ es', Own e = true) ∧ ∀ e s3, Own e = true → ¬ Step c s'' e s3) ∧
    ∀ es s', RunWith c (Calm c) s es s' → (∀ e ∈ es, Quiet e = true) → (∀ e s3, Own e = true → ¬ Step c s' e s3) →
      ∀ ch last, c.sys.topo.mixAt (L - 1) ch = some last → onChain subs ch ≠ [] →
      ∃ out, Returns s' last.hostname r last.name out ∧ out.Perm ((onChain subs ch).map (·.msg)) := by
  obtain ⟨h1, evs1, a1, T1, own1, t1, k1⟩ := one_round_go hS hL ht hconn (track_init c conn) (makers_init conn) (mono_with (fun _ _ h => h.1) hrun) hall honly
  have hl : LosslessRun c r (init conn) evs s := by
    clear hopen hsent hcl ho t1 k1 h1
    induction hrun with
    | nil => exact .nil
    | snoc hr' hp hst ih =>
      rename_i es0 s0 s1 e
      rw [clientCalls_append] at hall honly
      have hall0 := allOrderly_init hall
      have honly0 : OnlyRound r (clientCalls es0) := fun h r' loads order hm => honly h r' loads order (List.mem_append_left _ hm)
      obtain ⟨-, evs1, a1, T1, own1, t1, k1⟩ := one_round_go hS hL ht hconn (track_init c conn) (makers_init conn) (mono_with (fun _ _ h => h.1) hr') hall0 honly0
      exact (ih hall0 honly0).snoc (proper_of_alone k1 (alone_of_only hL ht t1 hall0 k1 honly0 hp.1)) hp.2 hst
  have go : ∀ es s', RunWith c (Calm c) s es s' → (∀ e ∈ es, Quiet e = true) → ProperRun c s es s' ∧ ∃ evs1 a1 T1 own1, Track c conn (evs ++ es) s' evs1 a1 T1 ∧ Makers s' own1 := by
    intro es s' h2 h3
    have : clientCalls (evs ++ es) = clientCalls evs := by rw [clientCalls_append, clientCalls_quiet h3, List.append_nil]
    exact one_round_go hS hL ht hconn t1 k1 h2 (by rw [this]; exact hall) (r := r) (by rw [this]; exact honly)
  obtain ⟨⟨N, hN⟩, h2, h3⟩ := C113_round_completes hS hL ht hconn hcpu htask hr hout hop hl hall hcl ho hopen hsent
  refine ⟨⟨N, fun es s' h4 h5 => hN es s' (go es s' h4 h5).1 h5⟩, ?_, ?_⟩
  · intro es s' h4 h5
    obtain ⟨h6, -⟩ := go es s' h4 h5
    obtain ⟨es', s'', h7, h8, h9⟩ := h2 es s' h6 h5
    have hq : ∀ e ∈ es ++ es', Quiet e = true := by
      intro e he
      rcases List.mem_append.1 he with he | he
      · exact h5 e he
      · exact quiet_of_own (h8 e he)
    have h10 : RunWith c (Calm c) s' es' s'' := by
      clear h8 hq h9
      induction h7 with
      | nil => exact .nil
      | snoc _ hp hst ih => exact ih.snoc (calm_of_proper hp) hst
    have h11 : RunWith c (Calm c) s (es ++ es') s'' := by
      clear h8 hq h9 h7
      induction h10 with
      | nil => simpa using h4
      | snoc _ hp hst ih => rw [← List.append_assoc]; exact ih.snoc hp hst
    obtain ⟨-, evs2, a2, T2, own2, t2, k2⟩ := go _ _ h11 hq
    refine ⟨es', s'', h10, h8, fun e s3 he hst => h9 e s3 he ?_ hst⟩
    have hcc : clientCalls (evs ++ (es ++ es')) = clientCalls evs := by rw [clientCalls_append, clientCalls_quiet hq, List.append_nil]
    refine proper_of_alone k2 (alone_of_only hL ht t2 (by rw [hcc]; exact hall) k2 (r := r) (by rw [hcc]; exact honly) ?_)
    cases e with
    | conn h0 h' ev => cases ev <;> first | trivial | cases he
    | _ => trivial
  · intro es s' h4 h5 h6
    exact h3 es s' (go es s' h4 h5).1 h5 fun e s3 he _ => h6 e s3 he

/-! ### A concrete execution that meets the hypotheses -/
namespace Ex
open Resmix.System (isOpening)
open Resmix.System.Ex (conf evs0 s4 lossless0 opens0 sent0 clients0 orderly0 all0 topo_ok)

/-- A client's call in both models. -/
def lift : System.Event → Event Unit Unit
  | .client h a => .client h a
  | _ => .enter [] 0

/-- An execution of client calls only is one over the call layer as well. -/
theorem lift_run {c : Config Unit Unit} {r : Nat} {conn : Str → Bool} {evs : List System.Event} {a : System.State} (h : System.LosslessRun c.sys r (System.init conn) evs a)
    (hc : ∀ e ∈ evs, ∃ x y, e = .client x y) : ∃ s, LosslessRun c r (init conn) (evs.map lift) s ∧ s.servers = a.servers ∧ clientCalls (evs.map lift) = evs := by
  induction h with
  | nil => exact ⟨_, .nil, rfl, rfl⟩
  | snoc hr hk hst ih =>
    rename_i evs a a' e
    obtain ⟨s, h1, h2, h3⟩ := ih fun e he => hc e (by simp [he])
    obtain ⟨x, y, rfl⟩ := hc e (by simp)
    cases hst with
    | client ha hs =>
      rename_i srv resp
      rw [← h2] at hs
      refine ⟨{ s.setServer x srv with owners := upd s.owners x (admit y resp none (s.owners x)) }, ?_, ?_, ?_⟩
      · rw [List.map_append]
        refine .snoc h1 (e := .client x y) trivial ?_ (.client ha hs)
        cases y with
        | addMessages r' ms => simp only [Keeps, System.Keeps] at hk ⊢; rw [h2]; exact hk
        | _ => trivial
      · funext h'; simp [State.setServer, System.State.setServer, h2]
      · rw [List.map_append, clientCalls_append, h3]; rfl

instance : Countable Mixer.Messages := by
  refine Function.Injective.countable (f := fun c : Mixer.Messages => (c.messages.map (List.map UInt8.toNat), c.physicalSender.map UInt8.toNat,
    c.logicalSender.map UInt8.toNat, c.logicalReceiver.map UInt8.toNat)) ?_
  have inj : Function.Injective UInt8.toNat := fun a b h => UInt8.toNat.inj h
  rintro ⟨a, b, c, d⟩ ⟨a', b', c', d'⟩ h
  simp only [Prod.mk.injEq] at h
  obtain ⟨h1, h2, h3, h4⟩ := h
  rw [List.map_injective_iff.2 (List.map_injective_iff.2 inj) h1, List.map_injective_iff.2 inj h2, List.map_injective_iff.2 inj h3, List.map_injective_iff.2 inj h4]

/-- Some encoding of requests. -/
theorem codec_exists : ∃ (enc : Nat → List Mixer.Messages → Bytes) (dec : Bytes → Option (Nat × List Mixer.Messages)), ∀ r ms, dec (enc r ms) = some (r, ms) := by
  obtain ⟨f, hf⟩ := exists_injective_nat (Nat × List Mixer.Messages)
  refine ⟨fun r ms => List.replicate (f (r, ms)) 0, fun b => Function.partialInv f b.length, fun r ms => ?_⟩
  simp only [List.length_replicate]
  exact Function.partialInv_left hf _

/-- A service with the method AddMessages. -/
theorem services_exists : ∃ svcs : Rrpc.Services Unit Unit, ∃ x, svcs.get Sender.addMessagesMethod = .ok x := by
  refine ⟨match Rrpc.extractMethodInfo Sender.addMessagesMethod with
    | .ok (sv, m) => [(sv, ⟨(), [(m, ())]⟩)]
    | .error _ => [], ((), ()), ?_⟩
  decide

/-- A proper execution that loses nothing, as one of calm steps. -/
theorem lossless_calm {c : Config ζ μ} {r : Nat} {s0 s : State ζ μ} {es : List (Event ζ μ)} (h : LosslessRun c r s0 es s) :
    RunWith c (fun s e => Calm c s e ∧ Keeps c r s e) s0 es s := by
  induction h with
  | nil => exact .nil
  | snoc _ hp hk hst ih => exact ih.snoc ⟨calm_of_proper hp, hk⟩ hst

/-- The execution of the example below opens only round 7. -/
theorem only0 : OnlyRound 7 evs0 := by
  intro h r loads order hm
  simp only [evs0, List.mem_cons, List.not_mem_nil, or_false, System.Event.client.injEq, Server.Action.newRound.injEq, reduceCtorEq, and_false] at hm
  rcases hm with hm | hm <;> exact hm.2.1

set_option maxHeartbeats 1000000 in
/-- Two servers and two layers over connections with the smallest windows; three submissions. The servers come to rest with the results (those of the second layer
come from messages the servers sent each other), and the execution as a whole is proper. -/
example : ∃ (c : Config Unit Unit) (evs : List (Event Unit Unit)) (s : State Unit Unit), Serves c ∧ ProperRun c (init fun _ => true) evs s ∧
    RunWith c (Calm c) (init fun _ => true) evs s ∧ OnlyRound 7 (clientCalls evs) ∧ AllOrderly c.sys 2 (clientCalls evs) ∧ (∀ e s', Own e = true → ¬ Step c s e s') ∧
    ∀ ch, ch < 2 → ∃ last out, c.sys.topo.mixAt 1 ch = some last ∧ Returns s last.hostname 7 last.name out ∧
      out.Perm ((onChain System.Ex.subs ch).map (·.msg)) := by
  obtain ⟨enc, dec, hcod⟩ := codec_exists
  obtain ⟨svcs, x, hx⟩ := services_exists
  let key (h : Str) : Rrpc.toySig.Sk := Rrpc.fitDigest h
  let c : Config Unit Unit :=
    { sys := conf, link := fun h h' => ⟨Rrpc.toySig, Rrpc.toyHash, Rrpc.toyCodec, key h, key h', svcs, 1, 5⟩, enc := enc, dec := dec, ack := [], svcErr := fun f => .plain [] }
  have hS : Serves c := ⟨fun r ms _ => hcod r ms, fun _ _ => ⟨x, hx⟩, fun _ _ => Nat.one_pos⟩
  have hcl : ∀ e ∈ evs0, ∃ x y, e = System.Event.client x y := by
    intro e he
    simp only [evs0, List.mem_cons, List.not_mem_nil, or_false] at he
    rcases he with rfl | rfl | rfl | rfl <;> exact ⟨_, _, rfl⟩
  obtain ⟨s, h1, h2, h3⟩ := lift_run (c := c) lossless0 hcl
  have hconn : Connected c.sys [System.Ex.a, System.Ex.b] := fun h _ h' hh => hh
  have hopen : ∀ h ∈ [System.Ex.a, System.Ex.b], (s.servers h).rounds.lookup 7 ≠ none := by
    intro h hh
    rw [h2]
    simp only [List.mem_cons, List.not_mem_nil, or_false] at hh
    rcases hh with rfl | rfl
    · rw [show (s4.servers System.Ex.a).rounds.lookup 7 = some 0 from rfl]; simp
    · rw [show (s4.servers System.Ex.b).rounds.lookup 7 = some 0 from rfl]; simp
  obtain ⟨-, h4, h5⟩ := C113_one_round hS (by omega) topo_ok hconn (fun _ _ => Nat.succ_pos _) (fun _ _ => Nat.succ_pos _) (by omega) (fun _ => Nat.succ_pos _)
    opens0 (lossless_calm h1) (by rw [h3]; exact all0) (by rw [h3]; exact only0) (by rw [h3]; exact clients0) (by rw [h3]; exact orderly0) hopen (by rw [h3]; exact sent0)
  obtain ⟨es, s', h6, h7, h8⟩ := h4 [] s .nil (by simp)
  have hq : ∀ e ∈ es, Quiet e = true := fun e he => quiet_of_own (h7 e he)
  have hcc : clientCalls (evs0.map lift ++ es) = evs0 := by rw [clientCalls_append, clientCalls_quiet hq, List.append_nil, h3]
  have hrun : RunWith c (Calm c) (init fun _ => true) (evs0.map lift ++ es) s' := by
    have h0 := mono_with (Q := Calm c) (fun _ _ h => h.1) (lossless_calm h1)
    clear hcc hq h8 h7 h5 h4
    induction h6 with
    | nil => simpa using h0
    | snoc _ hp hst ih => rw [← List.append_assoc]; exact ih.snoc hp hst
  refine ⟨c, evs0.map lift ++ es, s', hS, ?_, hrun, by rw [hcc]; exact only0, by rw [hcc]; exact all0, h8, ?_⟩
  · exact (one_round_go hS (by omega) topo_ok hconn (track_init c _) (makers_init _) hrun (by rw [List.nil_append, hcc]; exact all0) (r := 7) (by rw [List.nil_append, hcc]; exact only0)).1
  · intro ch hch
    rcases (show ch = 0 ∨ ch = 1 by omega) with rfl | rfl
    · obtain ⟨out, h9, h10⟩ := h5 es s' h6 hq h8 0 _ rfl (by simp [onChain, System.Ex.subs])
      exact ⟨_, out, rfl, h9, h10⟩
    · obtain ⟨out, h9, h10⟩ := h5 es s' h6 hq h8 1 _ rfl (by simp [onChain, System.Ex.subs])
      exact ⟨_, out, rfl, h9, h10⟩

end Ex

end Resmix.Stack
