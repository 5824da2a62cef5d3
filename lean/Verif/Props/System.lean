import Verif.Proofs.SystemC
import Verif.Props.Generate
set_option autoImplicit false
/-
C64: the whole system, end to end. Executions are lists of events (Model/System): calls of clients, steps of the goroutines of all
servers, batches forwarded by senders, requests delivered or lost. The clients' behaviour is read off their calls (Spec/System).
-/
namespace Resmix.System
open Resmix.Mixer (Messages MixOutput onionsFor)
open Resmix.Onion
open Resmix.Tibe Resmix.Config

theorem peels_first {t : Topology} {op : Str → Bytes → Go Bytes} {L ch l : Nat} {msg o : Bytes} (h : Peels t op L ch msg l o) (hl : l < L) :
    ∃ m, t.mixAt l ch = some m := by
  cases h with
  | done => omega
  | layer _ h2 => exact ⟨_, h2⟩

theorem forall₂_zip {P : Nat → Bytes → Prop} {msg : Bytes} {cs : List Nat} {os : List Bytes} (h : List.Forall₂ P cs os) :
    ∀ x ∈ List.zipWith (fun ch o => (⟨ch, msg, o⟩ : Submission)) cs os, x.msg = msg ∧ P x.chain x.onion := by
  induction h with
  | nil => simp
  | cons hp _ ih =>
    intro x hx
    simp only [List.zipWith_cons_cons, List.mem_cons] at hx
    rcases hx with rfl | hx
    · exact ⟨rfl, hp⟩
    · exact ih x hx

/-- C64. For every cascade, every list of submissions whose onions open along their chains with the keys of round `r`, and every
execution of the whole system in which the clients of round `r` behave: whenever the last mix of a chain returns its messages, they are,
with multiplicities, the plaintexts of the submissions over that chain; and if the last mixes of all chains have returned, the returned
messages together are, with multiplicities, the plaintexts of all submissions. Other rounds may run at the same time, with arbitrary
requests; requests may be lost, delayed or reordered; servers may crash. -/
theorem C64_end_to_end {c : Config} {servers : List Str} {L : Nat} (hL : 0 < L) (ht : Topology.createCascade servers L = .ok c.topo)
    {r : Nat} (hr : r < 2 ^ 32) {subs : List Submission}
    (hop : ∀ x ∈ subs, Peels c.topo (fun host o => (c.env host r).decrypt o) L x.chain x.msg 0 x.onion)
    {conn : Str → Bool} {evs : List Event} {s : State} (hrun : Run c (init conn) evs s) (hcl : Clients c.topo subs r evs) :
    (∀ ch last out, c.topo.mixAt (L - 1) ch = some last → Returns s last.hostname r last.name out →
      out.Perm ((subs.filter fun x => x.chain = ch).map (·.msg))) ∧
    (∀ outs : Nat → List Bytes,
      (∀ ch, ch < servers.length → ∃ last, c.topo.mixAt (L - 1) ch = some last ∧ Returns s last.hostname r last.name (outs ch)) →
      ((List.range servers.length).flatMap outs).Perm (subs.map (·.msg))) := by
  have hclosed := Topology.closed_of_create ht
  have hone : ∀ ch last out, c.topo.mixAt (L - 1) ch = some last → Returns s last.hostname r last.name out →
      out.Perm ((subs.filter fun x => x.chain = ch).map (·.msg)) := by
    intro ch last out hlast ⟨hcr, i, m, hi, hg⟩
    obtain ⟨hsi, _, A, ⟨v, _, _⟩⟩ := rinv_run hL ht hop hr hrun hcl
    have hm := mixerOf_eq (hsi last.hostname) hi
    obtain ⟨w, order, m0, hord, h0, hx, hw, hexp⟩ := v.mixer _ _ hm
    have hD : (Mixer.delivered (A last.hostname) last.name).Subperm (X c r subs ch (L - 1)) := subperm_of_count fun o => by
      rw [delivered_cnt]
      have h1 := v.acct _ _ _ hlast o
      have h2 := v.bnd (L - 1) ch o
      omega
    have hlen : (Mixer.delivered (A last.hostname) last.name).length ≤ Mixer.workloadOf w last.name := by
      rw [hw _ _ _ hlast, ← X_length (c := c) (r := r) (subs := subs) ch (L - 1)]; exact hD.length_le
    obtain ⟨hfull, hp⟩ := Mixer.C08_outputs_are_the_decryptions h0 hx hlen hg
    have hDp := hD.perm_of_length_le (by rw [hfull, hw _ _ _ hlast, X_length])
    have hXL : X c r subs ch L = (X c r subs ch (L - 1)).map (Mixer.resultOf (c.env last.hostname r)) := by
      obtain ⟨k, rfl⟩ : ∃ k, L = k + 1 := ⟨L - 1, by omega⟩
      simp only [Nat.add_sub_cancel] at hlast ⊢
      rw [X, hlast]
    have hmsg := X_last hop ch
    rw [hXL] at hmsg
    have := hp.trans (hDp.map (Mixer.resultOf (c.env last.hostname r)))
    rw [hmsg] at this
    exact this
  refine ⟨hone, ?_⟩
  intro outs houts
  have hchain : ∀ x ∈ subs, x.chain < servers.length := by
    intro x hx
    obtain ⟨m, hm⟩ := peels_first (hop x hx) hL
    exact (hclosed.mixAt_some hm).2.1
  have h1 : ((List.range servers.length).flatMap outs).Perm
      ((List.range servers.length).flatMap fun ch => (subs.filter fun x => x.chain = ch).map (·.msg)) := by
    refine List.Perm.flatMap_left _ fun ch hch => ?_
    obtain ⟨last, hl, hret⟩ := houts ch (List.mem_range.1 hch)
    exact hone ch last _ hl hret
  refine h1.trans ?_
  rw [← List.map_flatMap]
  refine List.Perm.map _ ?_
  clear hop hcl houts h1 hone
  generalize servers.length = n at hchain
  induction n generalizing subs with
  | zero =>
    have : subs = [] := List.eq_nil_iff_forall_not_mem.2 fun x hx => absurd (hchain x hx) (by omega)
    subst this; simp
  | succ n ih =>
    rw [List.range_succ, List.flatMap_append]
    simp only [List.flatMap_cons, List.flatMap_nil, List.append_nil]
    have hp := List.filter_append_perm (fun x : Submission => decide (x.chain < n)) subs
    refine List.Perm.trans ?_ hp
    refine List.Perm.append ?_ ?_
    · have := @ih (subs.filter fun x => decide (x.chain < n)) (fun x hx => by simpa using (List.mem_filter.1 hx).2)
      refine List.Perm.trans ?_ this
      refine List.Perm.of_eq (List.flatMap_congr fun ch hch => ?_)
      rw [List.filter_filter]
      refine List.filter_congr fun x _ => ?_
      have := List.mem_range.1 hch
      by_cases hx : x.chain = ch <;> simp [hx, this]
    · refine List.Perm.of_eq (List.filter_congr fun x hx => ?_)
      have := hchain x hx
      by_cases h : x.chain = n
      · simp [h]
      · have h2 : x.chain < n := by omega
        simp [h, h2]

/-- What one client makes of its message: chains chosen by calculateChain, and the onions of generateOnion (C20). -/
structure ClientMessage where
  msg : Bytes
  chains : List Nat
  rnd : Nat → Nat → Fr × Bytes
  onions : List Bytes

/-- The submissions of the clients. -/
def submissions (ms : List ClientMessage) : List Submission :=
  ms.flatMap fun m => List.zipWith (fun ch o => ⟨ch, m.msg, o⟩) m.chains m.onions

/-- The clients ran generateOnion for round `round` on these messages (messages.go:228-257). -/
def Generated {B : Bls} (S : Sha3) (G : Generator B) (n round : Nat) (ms : List ClientMessage) : Prop :=
  ∀ m ∈ ms, (∀ k i, (m.rnd k i).2.length = 16) ∧ CalculateChain S n m.msg (.ok m.chains) ∧
    wrapChains S G m.msg round m.chains m.rnd = .ok m.onions

theorem submissions_msgs {B : Bls} (S : Sha3) (G : Generator B) (n round : Nat) (ms : List ClientMessage) (hn : 1 ≤ n) (hb : n ≤ 2 ^ 50)
    (h : ∀ m ∈ ms, CalculateChain S n m.msg (.ok m.chains) ∧ m.onions.length = m.chains.length) :
    (submissions ms).map (·.msg) = ms.flatMap fun m => List.replicate ⌈Real.sqrt (2 * n)⌉₊ m.msg := by
  unfold submissions
  rw [List.map_flatMap]
  refine List.flatMap_congr fun m hm => ?_
  obtain ⟨h1, h2⟩ := h m hm
  obtain ⟨chains, he, hlen, _⟩ := C20_chain_count S n hn hb m.msg _ h1
  cases he
  rw [List.map_zipWith, ← hlen, List.eq_replicate_iff]
  refine ⟨by simp [h2], ?_⟩
  intro b hb
  rw [List.mem_iff_getElem] at hb
  obtain ⟨i, hi, rfl⟩ := hb
  simp

/-- What clients of a created system generate opens along its chain, and amounts to ⌈√(2n)⌉ submissions of each message. -/
theorem generated_opens (B : Bls) (S : Sha3) (addrs : List Str) (d : Nat) (dkg : Poly) (polys : List Poly) (cs : List ServerConfig)
    (hcr : Created B addrs d dkg polys cs) (L : Nat) (hL : L ≤ 2 ^ 32) (hn : 1 ≤ addrs.length) (hb : addrs.length ≤ 2 ^ 50)
    (c : Config) (ht : Topology.createCascade addrs L = .ok c.topo) (G : Generator B) (hG : NewGenerator B c.topo cs (.ok G))
    (node : Str → Node B) (hnode : ∀ sc ∈ cs, CreateTIBENode B sc (.ok (node sc.hostname))) (r : Nat)
    (henv : ∀ host, (c.env host r).decrypt = peel ((node host).decrypter (computeId S host r)))
    (ms : List ClientMessage) (hgen : Generated S G addrs.length r ms) :
    Opens c r L (submissions ms) ∧ (submissions ms).map (·.msg) = ms.flatMap fun m => List.replicate ⌈Real.sqrt (2 * addrs.length)⌉₊ m.msg := by
  have hpeel : ∀ m ∈ ms, List.Forall₂ (fun ch o => Peels c.topo (fun host o => peel ((node host).decrypter (computeId S host r)) o) L ch m.msg 0 o)
      m.chains m.onions := by
    intro m hm
    obtain ⟨h1, h2, h3⟩ := hgen m hm
    obtain ⟨chains, he, _, hlt⟩ := C20_chain_count S addrs.length hn hb m.msg _ h2
    cases he
    obtain ⟨G', onions, hg, hw, hf⟩ := C19_peel_yields_message B S addrs d dkg polys cs hcr L hL c.topo ht _ hG node hnode m.msg r m.chains hlt m.rnd h1
    cases hg
    rw [h3] at hw; cases hw
    exact hf
  have hop : Opens c r L (submissions ms) := by
    intro x hx
    simp only [submissions, List.mem_flatMap] at hx
    obtain ⟨m, hm, hx⟩ := hx
    have hf := hpeel m hm
    have henv' : (fun host o => (c.env host r).decrypt o) = fun host o => peel ((node host).decrypter (computeId S host r)) o := by
      funext host o; rw [henv]
    rw [henv']
    obtain ⟨h1, h2⟩ := forall₂_zip hf x hx
    rw [h1]; exact h2
  have hmsgs := submissions_msgs S G addrs.length r ms hn hb fun m hm => ⟨(hgen m hm).2.1, (hpeel m hm).length_eq.symm⟩
  exact ⟨hop, hmsgs⟩

/-- C64 for a created system: servers configured by CreateSystemConfigs decrypt with their round keys (server.go:141-142), clients wrap their
messages with NewMessageGenerator / generateOnion over the chains chosen for them. Once all last-layer mixes have returned, the returned
messages are the clients' plaintexts, each exactly ⌈√(2n)⌉ times (n = number of servers). -/
theorem C64_created_system (B : Bls) (S : Sha3) (addrs : List Str) (d : Nat) (dkg : Poly) (polys : List Poly) (cs : List ServerConfig)
    (hcr : Created B addrs d dkg polys cs) (L : Nat) (hL0 : 0 < L) (hL : L ≤ 2 ^ 32) (hn : 1 ≤ addrs.length) (hb : addrs.length ≤ 2 ^ 50)
    (c : Config) (ht : Topology.createCascade addrs L = .ok c.topo) (G : Generator B) (hG : NewGenerator B c.topo cs (.ok G))
    (node : Str → Node B) (hnode : ∀ sc ∈ cs, CreateTIBENode B sc (.ok (node sc.hostname))) (r : Nat) (hr : r < 2 ^ 32)
    (henv : ∀ host, (c.env host r).decrypt = peel ((node host).decrypter (computeId S host r)))
    (ms : List ClientMessage) (hgen : Generated S G addrs.length r ms) {conn : Str → Bool} {evs : List Event} {s : State}
    (hrun : Run c (init conn) evs s) (hcl : Clients c.topo (submissions ms) r evs) (outs : Nat → List Bytes)
    (houts : ∀ ch, ch < addrs.length → ∃ last, c.topo.mixAt (L - 1) ch = some last ∧ Returns s last.hostname r last.name (outs ch)) :
    ((List.range addrs.length).flatMap outs).Perm (ms.flatMap fun m => List.replicate ⌈Real.sqrt (2 * addrs.length)⌉₊ m.msg) := by
  obtain ⟨hop, hmsgs⟩ := generated_opens B S addrs d dkg polys cs hcr L hL hn hb c ht G hG node hnode r henv ms hgen
  rw [← hmsgs]
  exact (C64_end_to_end hL0 ht hr hop hrun hcl).2 outs houts

/-! ### A concrete execution that meets the hypotheses -/
namespace Ex

/-- The sender's calls when the maps are iterated in insertion order. -/
def sendC (s : Sender.MessageSender) (out : MixOutput) : GoMap Str (List Bytes) → Option (List Sender.Request)
  | [] => some []
  | (host, onions) :: rest =>
    match groupOnionsByMixName onions s.topo with
    | .error _ => none
    | .ok g => if host ∈ s.connections then (sendC s out rest).map (Sender.createRequest s out host g :: ·) else none

theorem sendC_sound (s : Sender.MessageSender) (out : MixOutput) :
    ∀ (g : GoMap Str (List Bytes)) (rqs : List Sender.Request), sendC s out g = some rqs → Sender.SendHosts s out g (.ok rqs)
  | [], rqs, h => by simp only [sendC, Option.some.injEq] at h; subst h; rfl
  | (host, onions) :: rest, rqs, h => by
    unfold sendC at h
    cases hg : groupOnionsByMixName onions s.topo with
    | error e => simp [hg] at h
    | ok g =>
      simp only [hg] at h
      split at h
      · rename_i hc
        simp only [Option.map_eq_some_iff] at h
        obtain ⟨r, hr, rfl⟩ := h
        refine ⟨.ok (Sender.createRequest s out host g), ?_, ?_⟩
        · unfold Sender.CreateRequest; rw [hg]; exact ⟨g, List.Perm.refl _, rfl⟩
        · simp only [hc, if_true]
          exact ⟨.ok r, sendC_sound s out rest r hr, rfl⟩
      · cases h

/-- An executable scheduler: every event is a step. -/
def stepC (c : Config) (s : State) : Event → Option State
  | .client h a =>
    match a with
    | .newRound r _ order => if r < 2 ^ 32 ∧ order = c.topo.mixes then (Server.step (c.server h) (s.servers h) a).map fun x => s.setServer h x.1 else none
    | .addMessages r _ => if r < 2 ^ 32 then (Server.step (c.server h) (s.servers h) a).map fun x => s.setServer h x.1 else none
    | _ => none
  | .work h a =>
    match a with
    | .enter _ => (Server.step (c.server h) (s.servers h) a).map fun x => s.setServer h x.1
    | .work _ b => if b = .recv then none else (Server.step (c.server h) (s.servers h) a).map fun x => s.setServer h x.1
    | _ => none
  | .forward h i =>
    match (s.servers h).objs[i]? with
    | none => none
    | some (r, m) =>
      match m.output with
      | [] => none
      | out :: _ =>
        match Server.step (c.server h) (s.servers h) (.work i .recv), groupOnionsByHostname out.onions c.topo with
        | some (srv, _), .ok g => (sendC (c.sender h r) out g).map fun rqs => { s.setServer h srv with net := s.net ++ rqs }
        | _, _ => none
  | .deliver k =>
    match s.net[k]? with
    | none => none
    | some rq => (Server.step (c.server rq.host) (s.servers rq.host) (.addMessages rq.round rq.messages)).map fun x =>
        { s.setServer rq.host x.1 with net := s.net.eraseIdx k }
  | .drop _ => none

theorem stepC_sound {c : Config} {s s' : State} {e : Event} (h : stepC c s e = some s') : Step c s e s' := by
  cases e with
  | client hh a =>
    cases a with
    | newRound r l o =>
      simp only [stepC] at h
      split at h
      · rename_i hc
        simp only [Option.map_eq_some_iff] at h
        obtain ⟨x, hx, rfl⟩ := h
        exact .client ⟨hc.1, hc.2 ▸ List.Perm.refl _⟩ hx
      · cases h
    | addMessages r l =>
      simp only [stepC] at h
      split at h
      · rename_i hc
        simp only [Option.map_eq_some_iff] at h
        obtain ⟨x, hx, rfl⟩ := h
        exact .client hc hx
      · cases h
    | _ => simp [stepC] at h
  | work hh a =>
    cases a with
    | enter k =>
      simp only [stepC, Option.map_eq_some_iff] at h
      obtain ⟨x, hx, rfl⟩ := h
      exact .work trivial hx
    | work k b =>
      simp only [stepC] at h
      split at h
      · cases h
      · rename_i hb
        simp only [Option.map_eq_some_iff] at h
        obtain ⟨x, hx, rfl⟩ := h
        exact .work hb hx
    | _ => simp [stepC] at h
  | forward hh i =>
    simp only [stepC] at h
    split at h
    · cases h
    · rename_i r m hm
      split at h
      · cases h
      · rename_i out rest ho
        split at h
        · rename_i srv resp g hs hg
          simp only [Option.map_eq_some_iff] at h
          obtain ⟨rqs, hr, rfl⟩ := h
          refine .forward hm ho hs ?_
          unfold Sender.SendBatch
          simp only [Config.sender]
          rw [hg]
          exact ⟨g, List.Perm.refl _, sendC_sound _ _ _ _ hr⟩
        · cases h
  | deliver k =>
    simp only [stepC] at h
    split at h
    · cases h
    · rename_i rq hk
      simp only [Option.map_eq_some_iff] at h
      obtain ⟨x, hx, rfl⟩ := h
      exact .deliver hk hx
  | drop k => simp [stepC] at h

def runC (c : Config) (s : State) : List Event → Option State
  | [] => some s
  | e :: es => (stepC c s e).bind fun s' => runC c s' es

theorem runC_sound {c : Config} {s0 : State} : ∀ {es : List Event} {s s' : State} {evs : List Event}, Run c s0 evs s → runC c s es = some s' →
    Run c s0 (evs ++ es) s'
  | [], s, s', evs, h, hr => by simp only [runC, Option.some.injEq] at hr; subst hr; simpa using h
  | e :: es, s, s', evs, h, hr => by
    simp only [runC, Option.bind_eq_some_iff] at hr
    obtain ⟨s1, h1, h2⟩ := hr
    have := runC_sound (h.snoc (stepC_sound h1)) h2
    simpa using this

def a : Str := [97]
def b : Str := [98]
def topo : Topology := match Topology.createCascade [a, b] 2 with | .ok t => t | .error _ => ⟨[], []⟩
/-- A toy scheme: opening an onion removes the address of its layer. -/
def env : Mixer.Env := { nCPU := 2, taskCap := 4, outCap := 4, decrypt := fun o => .ok (o.take (o.length - 8)) }
def conf : Config := { topo := topo, env := fun _ _ => env, connected := fun _ => [a, b] }
def onion (ch : Nat) (msg : Bytes) : Bytes := msg ++ be32 1 ++ be32 ch ++ be32 0 ++ be32 ch
def subs : List Submission := [⟨0, [41], onion 0 [41]⟩, ⟨0, [42], onion 0 [42]⟩, ⟨1, [43], onion 1 [43]⟩]
def loads : GoMap Str Nat := [(mixNameOf 0 0, 2), (mixNameOf 0 1, 1)]
def fromClient (os : List Bytes) (n : Str) : Messages := ⟨os, genesisName, genesisName, n⟩
def ws : List Bytes := [[0,0,0,0], [0,0,0,0], [0,0,0,0], [0,0,0,0]]
/-- the goroutines of host `h` handle the waiting batch of `k` onions -/
def mixing (h : Str) (k : Nat) : List Event := .work h (.enter 0) :: (List.replicate (k + 3) (.work h (.work 0 .addStep)) ++
  List.replicate k (.work h (.work 0 .take)) ++ List.replicate k (.work h (.work 0 (.finish 0))) ++ [.work h (.work 0 (.shuffle 0 ws))])
/-- Two servers, two layers, three submissions; the second server opens the round only after the first got its messages. -/
def evs : List Event :=
  [.client a (.newRound 7 loads topo.mixes), .client a (.addMessages 7 [fromClient [onion 0 [42]] (mixNameOf 0 0), fromClient [onion 0 [41]] (mixNameOf 0 0)]),
   .work a (.enter 0), .work a (.work 0 .addStep), .work a (.work 0 .addStep), .work a (.work 0 .addStep), .work a (.work 0 .addStep), .work a (.work 0 .take),
   .client b (.newRound 7 loads topo.mixes), .client b (.addMessages 7 [fromClient [onion 1 [43]] (mixNameOf 0 1)]),
   .work a (.work 0 .addStep), .work a (.work 0 .addStep), .work a (.work 0 .addStep), .work a (.work 0 .take), .work a (.work 0 (.finish 1)),
   .work a (.work 0 (.finish 0)), .work a (.work 0 (.shuffle 0 ws)), .work a (.work 0 (.send 0))] ++ mixing b 1 ++
  [.work b (.work 0 (.send 0)), .forward a 0, .forward b 0, .deliver 1, .deliver 0] ++ mixing b 2 ++ mixing a 1

def final : State := (runC conf (init fun _ => true) evs).getD (init fun _ => true)

set_option maxRecDepth 10000 in
theorem run_ok : (runC conf (init fun _ => true) evs).isSome = true := by rfl

theorem run : Run conf (init fun _ => true) evs final := by
  have h := run_ok
  rw [Option.isSome_iff_exists] at h
  obtain ⟨s, hs⟩ := h
  have := runC_sound (evs := []) Run.nil hs
  unfold final
  rw [hs]
  simpa using this

theorem topo_ok : Topology.createCascade [a, b] 2 = .ok conf.topo := rfl

theorem peels {ch : Nat} (hch : ch < 2) (msg : Bytes) : Peels conf.topo (fun host o => (conf.env host 7).decrypt o) 2 ch msg 0 (onion ch msg) := by
  obtain ⟨m0, h0⟩ : ∃ m, conf.topo.mixAt 0 ch = some m := by
    rcases (show ch = 0 ∨ ch = 1 by omega) with rfl | rfl <;> exact ⟨_, rfl⟩
  obtain ⟨m1, h1⟩ : ∃ m, conf.topo.mixAt 1 ch = some m := by
    rcases (show ch = 0 ∨ ch = 1 by omega) with rfl | rfl <;> exact ⟨_, rfl⟩
  have hb : ∀ n, (be32 n).length = 4 := fun n => rfl
  have hstrip : ∀ (x : Bytes) (i j : Nat), (x ++ be32 i ++ be32 j).take ((x ++ be32 i ++ be32 j).length - 8) = x := by
    intro x i j
    rw [List.append_assoc]
    have : (x ++ (be32 i ++ be32 j)).length - 8 = x.length := by simp [hb]
    rw [this, List.take_left]
  refine .layer (by omega) h0 ⟨msg ++ be32 1 ++ be32 ch, 0, ch, by omega, by omega, rfl, h0⟩ (by simp only [conf, env, onion]; rw [hstrip]) ?_
  exact .layer (by omega) h1 ⟨msg, 1, ch, by omega, by omega, rfl, h1⟩ (by simp only [conf, env]; rw [hstrip]) .done

theorem behaved : Clients conf.topo subs 7 evs where
  once h := by
    by_cases ha : h = a
    · subst ha; decide
    · by_cases hb : h = b
      · subst hb; decide
      · have : evs.filter (isOpening h 7) = [] := by
          rw [List.filter_eq_nil_iff]
          intro e he
          cases e with
          | client h' act =>
            cases act with
            | newRound r l o =>
              intro hopen
              simp only [isOpening, Bool.and_eq_true, decide_eq_true_eq] at hopen
              obtain ⟨rfl, _⟩ := hopen
              simp only [evs, mixing, List.mem_append, List.mem_cons, List.mem_replicate] at he
              simp at he
              rcases he with ⟨h, _⟩ | ⟨h, _⟩
              · exact ha h
              · exact hb h
            | _ => simp [isOpening]
          | _ => simp [isOpening]
        rw [this]; simp
  loads h ls order he := by
    have : ls = loads := by
      simp only [evs, mixing, List.mem_append, List.mem_cons, List.mem_replicate] at he
      simp at he
      rcases he with ⟨_, h, _⟩ | ⟨_, h, _⟩ <;> exact h
    subst this
    refine ⟨by decide, ?_⟩
    intro c first hf
    have hc := (Topology.closed_of_create topo_ok).mixAt_some hf
    rcases (show c = 0 ∨ c = 1 by have := hc.2.1; simp at this; omega) with rfl | rfl <;>
    · cases hf; rfl
  first h ms he := by
    simp only [evs, mixing, List.mem_append, List.mem_cons, List.mem_replicate] at he
    simp at he
    rcases he with ⟨_, rfl⟩ | ⟨_, rfl⟩
    · intro m hm
      simp only [List.mem_cons, List.not_mem_nil, or_false] at hm
      refine ⟨0, _, rfl, ?_⟩
      rcases hm with rfl | rfl <;> exact ⟨rfl, fun h => by simp [fromClient] at h⟩
    · intro m hm
      simp only [List.mem_cons, List.not_mem_nil, or_false] at hm
      subst hm
      exact ⟨1, _, rfl, rfl, fun h => by simp [fromClient] at h⟩
  onions c first hf := by
    have hc := (Topology.closed_of_create topo_ok).mixAt_some hf
    rcases (show c = 0 ∨ c = 1 by have := hc.2.1; simp at this; omega) with rfl | rfl
    · cases hf; exact (List.Perm.swap _ _ []).subperm
    · cases hf; exact (List.Perm.refl _).subperm

/-- Both last mixes return, so the theorem applies to this execution. -/
def outs (ch : Nat) : List Bytes := if ch = 0 then [[42], [41]] else [[43]]

theorem returned : ∀ ch, ch < [a, b].length → ∃ last, conf.topo.mixAt (2 - 1) ch = some last ∧ Returns final last.hostname 7 last.name (outs ch) := by
  intro ch hch
  simp only [List.length_cons, List.length_nil] at hch
  rcases (show ch = 0 ∨ ch = 1 by omega) with rfl | rfl
  · exact ⟨_, rfl, rfl, 0, _, rfl, rfl⟩
  · exact ⟨_, rfl, rfl, 0, _, rfl, rfl⟩

example : ((List.range 2).flatMap outs).Perm [[41], [42], [43]] :=
  (C64_end_to_end (by omega) topo_ok (by omega) (fun x hx => by
    simp only [subs, List.mem_cons, List.not_mem_nil, or_false] at hx
    rcases hx with rfl | rfl | rfl <;> exact peels (by simp) _) run behaved).2 outs returned

end Ex

end Resmix.System
