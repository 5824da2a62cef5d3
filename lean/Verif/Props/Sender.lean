import Verif.Model.Sender
import Verif.Props.Onion
import Verif.Props.Mixer
import Verif.Proofs.Strings
set_option autoImplicit false
/-
C23, C24, C25, C70: the sender (sender.go) and round identities (server.go:103-106).
-/
namespace Resmix.Sender
open Resmix.Mixer (Messages MixOutput)
open Resmix.Onion

/-! ### C23 -/

theorem onionsFor_sub {t : Topology} {key : LogicalMix → Str} {onions : List Bytes} {k : Str} {o : Bytes}
    (h : o ∈ onionsFor t key onions k) : o ∈ onions ∧ AddressesKey t key k o := by
  classical
  unfold onionsFor at h
  rw [List.mem_filter] at h
  exact ⟨h.1, by simpa using h.2⟩

theorem addresses_unique {t : Topology} {o : Bytes} {m m' : LogicalMix} (h : Addresses t o m) (h' : Addresses t o m') : m = m' := by
  have := (extract_iff.2 h).symm.trans (extract_iff.2 h')
  injection this

/-- What one request has to look like. -/
structure GoodRequest (s : MessageSender) (out : MixOutput) (rq : Request) : Prop where
  connected : rq.host ∈ s.connections
  method : rq.method = addMessagesMethod
  round : rq.round = s.round % 2 ^ 32
  uuid : rq.uuid = uuidOf s.address rq.host out.logicalSender
  receivers_distinct : (rq.messages.map fun ms => ms.logicalReceiver).Nodup
  senders : ∀ ms ∈ rq.messages, ms.physicalSender = s.address ∧ ms.logicalSender = out.logicalSender
  onions : ∀ ms ∈ rq.messages, ms.messages ≠ [] ∧
    ms.messages = onionsFor s.topo (fun m => m.name) (onionsFor s.topo (fun m => m.hostname) out.onions rq.host) ms.logicalReceiver
  routed : ∀ ms ∈ rq.messages, ∀ o ∈ ms.messages, ∃ m, Addresses s.topo o m ∧ m.name = ms.logicalReceiver ∧ m.hostname = rq.host

theorem createRequest_spec {s : MessageSender} {out : MixOutput} {host : Str} {first : List LogicalMix}
    (hf : s.topo.layers[0]? = some first) (hne : first ≠ []) (hc : host ∈ s.connections)
    (hw : ∀ o ∈ out.onions, ∃ m, Addresses s.topo o m) {rq : Go Request}
    (h : CreateRequest s out host (onionsFor s.topo (fun m => m.hostname) out.onions host) rq) :
    ∃ r, rq = .ok r ∧ GoodRequest s out r ∧ r.host = host ∧
      (r.messages.flatMap fun ms => ms.messages).Perm (onionsFor s.topo (fun m => m.hostname) out.onions host) := by
  obtain ⟨g, hg, hnd, hmem, hperm, _⟩ := C22_by_mix_name (onionsFor s.topo (fun m => m.hostname) out.onions host) s.topo first hf hne
    (fun o ho => hw o (onionsFor_sub ho).1)
  unfold CreateRequest at h
  rw [hg] at h
  obtain ⟨order, ho, rfl⟩ := h
  have hall : ∀ ms ∈ (createRequest s out host order).messages, (ms.logicalReceiver, ms.messages) ∈ g ∧ ms.physicalSender = s.address ∧
      ms.logicalSender = out.logicalSender := by
    intro ms hms
    simp only [createRequest, List.mem_map] at hms
    obtain ⟨e, he, rfl⟩ := hms
    exact ⟨ho.mem_iff.1 he, rfl, rfl⟩
  refine ⟨_, rfl, ⟨hc, rfl, rfl, rfl, ?_, fun ms hms => (hall ms hms).2, ?_, ?_⟩, rfl, ?_⟩
  · have : ((createRequest s out host order).messages.map fun ms => ms.logicalReceiver) = order.map Prod.fst := by
      simp [createRequest, Function.comp_def]
    rw [this]
    exact GoMap.nodup_perm ho.symm hnd
  · intro ms hms
    have := (hmem _ _).1 (hall ms hms).1
    exact this
  · intro ms hms o hoo
    have hx := (hmem _ _).1 (hall ms hms).1
    rw [hx.2] at hoo
    obtain ⟨h1, m, hm, hmn⟩ := onionsFor_sub hoo
    obtain ⟨_, m', hm', hmh⟩ := onionsFor_sub h1
    rw [addresses_unique hm' hm] at hmh
    exact ⟨m, hm, hmn, hmh⟩
  · have : ((createRequest s out host order).messages.flatMap fun ms => ms.messages) = order.flatMap Prod.snd := by
      simp [createRequest, List.flatMap_map]
    rw [this]
    exact (ho.flatMap_right _).trans hperm

theorem sendHosts_spec {s : MessageSender} {out : MixOutput} {first : List LogicalMix}
    (hf : s.topo.layers[0]? = some first) (hne : first ≠ []) (hw : ∀ o ∈ out.onions, ∃ m, Addresses s.topo o m)
    (order : GoMap Str (List Bytes)) (ho : ∀ e ∈ order, e.1 ∈ s.connections ∧ e.2 = onionsFor s.topo (fun m => m.hostname) out.onions e.1)
    {res : Go (List Request)} (h : SendHosts s out order res) :
    ∃ rqs, res = .ok rqs ∧ rqs.map (fun rq => rq.host) = order.map Prod.fst ∧ (∀ rq ∈ rqs, GoodRequest s out rq) ∧
      (rqs.flatMap fun rq => rq.messages.flatMap fun ms => ms.messages).Perm (order.flatMap Prod.snd) := by
  induction order generalizing res with
  | nil => rw [SendHosts] at h; exact ⟨[], h, rfl, by simp, by simp⟩
  | cons e order ih =>
    obtain ⟨host, onions⟩ := e
    rw [SendHosts] at h
    obtain ⟨rq, hcr, hrest⟩ := h
    obtain ⟨hc, he⟩ := ho _ List.mem_cons_self
    simp only at hc he
    rw [he] at hcr
    obtain ⟨r, rfl, hgood, hhost, hp⟩ := createRequest_spec hf hne hc hw hcr
    simp only at hrest
    rw [if_pos hc] at hrest
    obtain ⟨res', hs', rfl⟩ := hrest
    obtain ⟨rqs, rfl, h1, h2, h3⟩ := ih (fun e' he' => ho e' (List.mem_cons_of_mem _ he')) hs'
    refine ⟨r :: rqs, rfl, by simp [hhost, h1], ?_, ?_⟩
    · intro rq hrq
      rcases List.mem_cons.1 hrq with rfl | hrq
      · exact hgood
      · exact h2 rq hrq
    · simp only [List.flatMap_cons]
      rw [he]
      exact hp.append h3

/-- C23: for every batch of onions that address mixes of the topology on connected hosts, and whatever the map iteration orders, the
calls the sender issues contain every onion exactly once; there is one call per host and one entry per mix, and each entry holds exactly
the onions addressed to that mix of that host, in the order of the batch, tagged with the batch's logical sender and this server's
address. -/
theorem C23_each_onion_once (s : MessageSender) (out : MixOutput) (first : List LogicalMix) (hf : s.topo.layers[0]? = some first)
    (hne : first ≠ []) (hw : ∀ o ∈ out.onions, ∃ m, Addresses s.topo o m ∧ m.hostname ∈ s.connections) (res : Go (List Request))
    (h : SendBatch s out res) :
    ∃ rqs, res = .ok rqs ∧ (rqs.flatMap fun rq => rq.messages.flatMap fun ms => ms.messages).Perm out.onions ∧
      (rqs.map fun rq => rq.host).Nodup ∧ ∀ rq ∈ rqs, GoodRequest s out rq := by
  have hw' : ∀ o ∈ out.onions, ∃ m, Addresses s.topo o m := fun o ho => (hw o ho).imp fun m hm => hm.1
  obtain ⟨g, hg, hnd, hmem, hperm, _⟩ := C22_by_hostname out.onions s.topo first hf hne hw'
  unfold SendBatch at h
  rw [hg] at h
  obtain ⟨order, ho, hs⟩ := h
  obtain ⟨rqs, h1, h2, h3, h4⟩ := sendHosts_spec hf hne hw' order (by
    rintro ⟨host, onions⟩ he
    obtain ⟨hne', heq⟩ := (hmem host onions).1 (ho.mem_iff.1 he)
    refine ⟨?_, heq⟩
    rw [heq] at hne'
    obtain ⟨o, hoo⟩ := List.exists_mem_of_ne_nil _ hne'
    obtain ⟨hoin, m, hm, hmh⟩ := onionsFor_sub hoo
    obtain ⟨m', hm', hconn⟩ := hw o hoin
    rw [addresses_unique hm' hm] at hconn
    simp only at hmh ⊢
    rw [← hmh]; exact hconn) hs
  refine ⟨rqs, h1, h4.trans ((ho.flatMap_right _).trans hperm), ?_, h3⟩
  rw [h2]
  exact GoMap.nodup_perm ho.symm hnd

/-- The cascade over three hosts with two layers, as seen by the sender of the first host in round 5. -/
def exTopo : Topology := match Topology.createCascade Topology.exampleHosts 2 with | .ok t => t | .error _ => ⟨[], []⟩
def exSender : MessageSender := { round := 5, topo := exTopo, connections := Topology.exampleHosts, address := [97] }
def exBatch : MixOutput := { onions := [[7] ++ be32 1 ++ be32 2, be32 1 ++ be32 1, [8, 9] ++ be32 1 ++ be32 2], logicalSender := mixNameOf 0 0 }

theorem exBatch_good : ∀ o ∈ exBatch.onions, ∃ m, Addresses exSender.topo o m ∧ m.hostname ∈ exSender.connections := by
  intro o ho
  simp only [exBatch, List.mem_cons, List.not_mem_nil, or_false] at ho
  rcases ho with rfl | rfl | rfl
  · exact ⟨_, ⟨[7], 1, 2, by decide, by decide, rfl, rfl⟩, by decide⟩
  · exact ⟨_, ⟨[], 1, 1, by decide, by decide, rfl, rfl⟩, by decide⟩
  · exact ⟨_, ⟨[8, 9], 1, 2, by decide, by decide, rfl, rfl⟩, by decide⟩

theorem sendHosts_total (s : MessageSender) (out : MixOutput) (order : GoMap Str (List Bytes)) : ∃ res, SendHosts s out order res := by
  induction order with
  | nil => exact ⟨.ok [], by rw [SendHosts]⟩
  | cons e order ih =>
    obtain ⟨host, onions⟩ := e
    obtain ⟨res, hres⟩ := ih
    have hcr : ∃ rq, CreateRequest s out host onions rq := by
      unfold CreateRequest
      split
      · exact ⟨_, rfl⟩
      · exact ⟨_, _, List.Perm.refl _, rfl⟩
    obtain ⟨rq, hrq⟩ := hcr
    cases hr : rq with
    | error e => exact ⟨.error e, by rw [SendHosts]; exact ⟨rq, hrq, by rw [hr]⟩⟩
    | ok r =>
      by_cases hc : host ∈ s.connections
      · exact ⟨res.map (r :: ·), by rw [SendHosts]; refine ⟨rq, hrq, ?_⟩; rw [hr]; simp only; rw [if_pos hc]; exact ⟨res, hres, rfl⟩⟩
      · exact ⟨.error .panic, by rw [SendHosts]; refine ⟨rq, hrq, ?_⟩; rw [hr]; simp only; rw [if_neg hc]; trivial⟩

/-- Handling a batch always has a result. -/
theorem sendBatch_total (s : MessageSender) (out : MixOutput) : ∃ res, SendBatch s out res := by
  unfold SendBatch
  split
  · exact ⟨_, rfl⟩
  · next g _ =>
    obtain ⟨res, h⟩ := sendHosts_total s out g
    exact ⟨res, g, List.Perm.refl _, h⟩

example : ∃ rqs, SendBatch exSender exBatch (.ok rqs) ∧ (rqs.flatMap fun rq => rq.messages.flatMap fun ms => ms.messages).Perm exBatch.onions := by
  obtain ⟨res, h⟩ := sendBatch_total exSender exBatch
  obtain ⟨rqs, rfl, hp, _⟩ := C23_each_onion_once exSender exBatch _ rfl (by decide) exBatch_good res h
  exact ⟨rqs, h, hp⟩

/-! ### C24 -/

theorem dec_ne_sp (n : Nat) : (32 : UInt8) ∉ dec n := by
  intro h
  have := (dec_digits n 32 h).1
  simp at this

theorem inner_inj (a b : Bytes) (h : ((a.map fun x => dec x.toNat).intersperse [32]).flatten = ((b.map fun x => dec x.toNat).intersperse [32]).flatten) :
    a = b := by
  induction a generalizing b with
  | nil =>
    cases b with
    | nil => rfl
    | cons y ys =>
      exfalso
      cases ys with
      | nil => simp at h; exact dec_ne_nil _ h
      | cons z zs => simp at h
  | cons x xs ih =>
    cases b with
    | nil =>
      exfalso
      cases xs with
      | nil => simp at h; exact dec_ne_nil _ h
      | cons z zs => simp at h
    | cons y ys =>
      have hdec : ∀ {x y : UInt8}, dec x.toNat = dec y.toNat → x = y := fun h => UInt8.toNat.inj (dec_inj h)
      cases xs with
      | nil =>
        cases ys with
        | nil => simp at h; rw [hdec h]
        | cons z zs =>
          exfalso
          have hsp : (32 : UInt8) ∈ dec x.toNat := by
            have : dec x.toNat = dec y.toNat ++ (32 :: (((z :: zs).map fun x => dec x.toNat).intersperse [32]).flatten) := by simpa using h
            rw [this]; simp
          exact dec_ne_sp _ hsp
      | cons z zs =>
        cases ys with
        | nil =>
          exfalso
          have hsp : (32 : UInt8) ∈ dec y.toNat := by
            have : dec x.toNat ++ (32 :: (((z :: zs).map fun x => dec x.toNat).intersperse [32]).flatten) = dec y.toNat := by simpa using h
            rw [← this]; simp
          exact dec_ne_sp _ hsp
        | cons w ws =>
          have h' : dec x.toNat ++ (32 :: (((z :: zs).map fun x => dec x.toNat).intersperse [32]).flatten) =
              dec y.toNat ++ (32 :: (((w :: ws).map fun x => dec x.toNat).intersperse [32]).flatten) := by simpa using h
          obtain ⟨h1, h2⟩ := append_sep_inj (dec_ne_sp _) (dec_ne_sp _) h'
          rw [hdec h1, ih _ h2]

theorem inner_chars (a : Bytes) : ∀ b ∈ ((a.map fun x => dec x.toNat).intersperse [32]).flatten, b.toNat = 32 ∨ (48 ≤ b.toNat ∧ b.toNat ≤ 57) := by
  induction a with
  | nil => intro b hb; simp at hb
  | cons x xs ih =>
    intro b hb
    cases xs with
    | nil => simp at hb; exact Or.inr (dec_digits _ b hb)
    | cons z zs =>
      have hb' : b ∈ dec x.toNat ++ (32 :: (((z :: zs).map fun x => dec x.toNat).intersperse [32]).flatten) := by simpa using hb
      rw [List.mem_append, List.mem_cons] at hb'
      rcases hb' with hb' | rfl | hb'
      · exact Or.inr (dec_digits _ b hb')
      · exact Or.inl rfl
      · exact ih b hb'

theorem uuid_inj {a h l a' h' l' : Str} (hl : (58 : UInt8) ∉ l) (hl' : (58 : UInt8) ∉ l') (he : uuidOf a h l = uuidOf a' h' l') :
    a = a' ∧ h = h' ∧ l = l' := by
  unfold uuidOf fmtBytes at he
  have hb : ∀ x : Bytes, (93 : UInt8) ∉ [91] ++ ((x.map fun x => dec x.toNat).intersperse [32]).flatten := by
    intro x hx
    rw [List.mem_append] at hx
    rcases hx with hx | hx
    · simp at hx
    · have := inner_chars x _ hx; simp at this
  have he1 : ([91] ++ ((a.map fun x => dec x.toNat).intersperse [32]).flatten) ++ (93 :: ([45, 116, 111, 45] ++ h ++ [58, 102, 114, 111, 109, 45] ++ l)) =
      ([91] ++ ((a'.map fun x => dec x.toNat).intersperse [32]).flatten) ++ (93 :: ([45, 116, 111, 45] ++ h' ++ [58, 102, 114, 111, 109, 45] ++ l')) := by
    simpa using he
  obtain ⟨e1, e2⟩ := append_sep_inj (hb a) (hb a') he1
  have ea : a = a' := inner_inj a a' (List.append_cancel_left e1)
  -- the last colon separates host and logical sender
  have e3 : (l.reverse ++ [45, 109, 111, 114, 102]) ++ (58 :: h.reverse) = (l'.reverse ++ [45, 109, 111, 114, 102]) ++ (58 :: h'.reverse) := by
    have e4 : h ++ ([58, 102, 114, 111, 109, 45] ++ l) = h' ++ ([58, 102, 114, 111, 109, 45] ++ l') := by simpa using e2
    have := congrArg List.reverse e4
    simpa using this
  have hn : ∀ x : Str, (58 : UInt8) ∉ x → (58 : UInt8) ∉ x.reverse ++ [45, 109, 111, 114, 102] := by
    intro x hx hmem
    rw [List.mem_append] at hmem
    rcases hmem with hmem | hmem
    · exact hx (List.mem_reverse.1 hmem)
    · simp at hmem
  obtain ⟨e5, e6⟩ := append_sep_inj (hn l hl) (hn l' hl') e3
  refine ⟨ea, List.reverse_injective e6, ?_⟩
  exact List.reverse_injective (List.append_cancel_right e5)

theorem colon_not_mem_name (l p : Nat) : (58 : UInt8) ∉ mixNameOf l p := by
  unfold mixNameOf
  intro h
  simp only [List.mem_append] at h
  have hd : ∀ n, (58 : UInt8) ∉ dec n := by
    intro n hn
    have := (dec_digits n 58 hn).2
    simp at this
  rcases h with (((h | h) | h) | h) | h
  · simp at h
  · exact hd _ h
  · simp at h
  · exact hd _ h
  · simp at h

/-- C24, the part that holds: within one round, requests for the outputs of mixes of a cascade carry different uuids unless they come from
the same server, go to the same host and are for the same mix. -/
theorem C24_within_round_partial (servers : List Str) (L : Nat) (t : Topology) (ht : Topology.createCascade servers L = .ok t)
    (s s' : MessageSender) (out out' : MixOutput) (m m' : LogicalMix) (hm : m ∈ t.layers.flatten) (hm' : m' ∈ t.layers.flatten)
    (ho : out.logicalSender = m.name) (ho' : out'.logicalSender = m'.name) (host host' : Str) (order order' : GoMap Str (List Bytes))
    (he : (createRequest s out host order).uuid = (createRequest s' out' host' order').uuid) :
    s.address = s'.address ∧ host = host' ∧ out.logicalSender = out'.logicalSender := by
  have hc := Topology.closed_of_create ht
  obtain ⟨l, i, _, rfl⟩ := hc.mem_flatten.1 hm
  obtain ⟨l', i', _, rfl⟩ := hc.mem_flatten.1 hm'
  refine uuid_inj ?_ ?_ he
  · rw [ho]; exact colon_not_mem_name _ _
  · rw [ho']; exact colon_not_mem_name _ _

/-- C24 does not hold across rounds: whatever the sender issues for a batch in one round, it issues with the very same uuids for the same
batch in every other round (the uuid does not contain the round number). -/
theorem C24_round_not_in_uuid_refuted (s : MessageSender) (out : MixOutput) (rqs : List Request) (r' : Nat)
    (h : SendBatch s out (.ok rqs)) :
    SendBatch { s with round := r' } out (.ok (rqs.map fun rq => { rq with round := r' % 2 ^ 32 })) := by
  unfold SendBatch at h ⊢
  simp only at h ⊢
  split at h
  · cases h
  · next g hg =>
    obtain ⟨order, ho, hs⟩ := h
    refine ⟨order, ho, ?_⟩
    clear ho hg
    induction order generalizing rqs with
    | nil =>
      rw [SendHosts] at hs ⊢
      injection hs with hs; subst hs; rfl
    | cons e order ih =>
      obtain ⟨host, onions⟩ := e
      rw [SendHosts] at hs ⊢
      obtain ⟨rq, hcr, hrest⟩ := hs
      cases rq with
      | error e => simp only at hrest; cases hrest
      | ok rq =>
        simp only at hrest
        refine ⟨.ok { rq with round := r' % 2 ^ 32 }, ?_, ?_⟩
        · unfold CreateRequest at hcr ⊢
          simp only at hcr ⊢
          split at hcr
          · cases hcr
          · obtain ⟨ord, h1, h2⟩ := hcr
            refine ⟨ord, h1, ?_⟩
            injection h2 with h2
            rw [h2]; rfl
        · simp only
          split at hrest
          · next hc =>
            rw [if_pos hc]
            obtain ⟨res', h1, h2⟩ := hrest
            cases res' with
            | error e => cases h2
            | ok rs =>
              injection h2 with h2
              subst h2
              exact ⟨_, ih rs h1, rfl⟩
          · cases hrest

/-- Two rounds of a concrete sender: the same uuid for different requests. -/
example : ∃ rq rq' : Request, (∃ rqs, SendBatch exSender exBatch (.ok rqs) ∧ rq ∈ rqs) ∧
    (∃ rqs, SendBatch { exSender with round := 6 } exBatch (.ok rqs) ∧ rq' ∈ rqs) ∧ rq.uuid = rq'.uuid ∧ rq.round = 5 ∧ rq'.round = 6 := by
  obtain ⟨res, h⟩ := sendBatch_total exSender exBatch
  obtain ⟨rqs, rfl, hp, _, hg⟩ := C23_each_onion_once exSender exBatch _ rfl (by decide) exBatch_good res h
  cases rqs with
  | nil => have := hp.length_eq; simp [exBatch] at this
  | cons rq rqs =>
    refine ⟨rq, { rq with round := 6 % 2 ^ 32 }, ⟨_, h, List.mem_cons_self⟩, ⟨_, C24_round_not_in_uuid_refuted exSender exBatch _ 6 h, ?_⟩, rfl, ?_, rfl⟩
    · simp
    · rw [(hg rq List.mem_cons_self).round]; rfl

/-! ### C25 -/

/-- C25 does not hold: for every hash function, host "h:505" in round 10 and host "h:5051" in round 0 have the same identity (host and
round are concatenated without a separator). -/
theorem C25_identities_collide_refuted (S : Sha3) :
    computeId S [104, 58, 53, 48, 53] 10 = computeId S [104, 58, 53, 48, 53, 49] 0 ∧
    ([104, 58, 53, 48, 53] : Str) ≠ [104, 58, 53, 48, 53, 49] := by
  refine ⟨?_, by decide⟩
  unfold computeId
  congr 1

/-- C25, the part that holds: two (host, round) pairs have different identities, up to an exhibited SHA3 collision, unless one host name is
the other one followed by digits. In particular different rounds of one host always differ. -/
theorem C25_identities_differ_partial (S : Sha3) (h h' : Str) (r r' : Nat)
    (hd : ∀ x : Str, x ≠ [] → (∀ b ∈ x, 48 ≤ b.toNat ∧ b.toNat ≤ 57) → h' ≠ h ++ x ∧ h ≠ h' ++ x)
    (he : computeId S h r = computeId S h' r') :
    (h = h' ∧ r = r') ∨ Tibe.Collision S.sum (h ++ dec r) (h' ++ dec r') := by
  by_cases heq : h ++ dec r = h' ++ dec r'
  · left
    rcases List.append_eq_append_iff.1 heq with ⟨x, h1, h2⟩ | ⟨x, h1, h2⟩
    · by_cases hx : x = []
      · subst hx
        rw [List.append_nil] at h1
        rw [List.nil_append] at h2
        exact ⟨h1.symm, dec_inj h2⟩
      · exact absurd h1 (hd x hx (fun b hb => dec_digits r b (by rw [h2]; exact List.mem_append_left _ hb))).1
    · by_cases hx : x = []
      · subst hx
        rw [List.append_nil] at h1
        rw [List.nil_append] at h2
        exact ⟨h1, dec_inj h2.symm⟩
      · exact absurd h1 (hd x hx (fun b hb => dec_digits r' b (by rw [h2]; exact List.mem_append_left _ hb))).2
  · right; exact ⟨heq, he⟩

/-- The hypothesis holds for any two hosts with names of equal length (such as "localhost:5050" and "localhost:5051"). -/
theorem C25_equal_length_partial (S : Sha3) (h h' : Str) (r r' : Nat) (hl : h.length = h'.length) (he : computeId S h r = computeId S h' r') :
    (h = h' ∧ r = r') ∨ Tibe.Collision S.sum (h ++ dec r) (h' ++ dec r') := by
  refine C25_identities_differ_partial S h h' r r' ?_ he
  intro x hx _
  have : 0 < x.length := List.length_pos_iff.2 hx
  constructor <;> (intro h0; have := congrArg List.length h0; simp at this; omega)

example : ([104, 58, 53] : Str).length = ([104, 58, 54] : Str).length := rfl

/-! ### C70 -/

/-- C70 does not hold: if one of the onions of an inner mix does not decrypt, the batch the mix forwards contains an empty onion, and
handling that batch panics in the sender goroutine - which takes the whole process down - in every topology, with every set of
connections. -/
theorem C70_bad_onion_crashes_refuted {env : Mixer.Env} {topo : Topology} {mixes : List LogicalMix} {w : GoMap Str Int}
    {st0 st : Mixer.State} {acts : List Mixer.Action} (h0 : Mixer.newMixers topo mixes w = .ok st0) (hnd : (mixes.map (·.name)).Nodup)
    (hx : Mixer.exec env st0 acts = some st) (hc : st.crashed = false) {mix : LogicalMix} (hmix : mix ∈ mixes)
    {pk : Str × Str} (hpk : Mixer.ExpectsOnly topo w mix pk) (hin : mix.layer + 1 ≠ topo.layers.length)
    (hne : Mixer.NoEmptyBatch acts mix.name) (hw : 0 < Mixer.workloadOf w mix.name)
    (hle : (Mixer.delivered acts mix.name).length ≤ Mixer.workloadOf w mix.name)
    (o : Bytes) (ho : o ∈ Mixer.delivered acts mix.name) (e : Fail) (hbad : env.decrypt o = .error e)
    (b : MixOutput) (hb : b ∈ st.sent) (hbm : b.logicalSender = mix.name) (s : MessageSender) (res : Go (List Request))
    (h : SendBatch s b res) : res = .error .panic := by
  obtain ⟨_, _, h3⟩ := Mixer.C10_forwards_once_partial h0 hnd hx hc hmix hpk
  obtain ⟨_, h4, _⟩ := h3 hin hne hw hle
  have hg := h4 b hb hbm
  obtain ⟨_, hp⟩ := Mixer.C08_outputs_are_the_decryptions h0 hx hle hg
  have hmem : ([] : Bytes) ∈ b.onions := by
    rw [hp.mem_iff, List.mem_map]
    exact ⟨o, ho, by rw [hbad]⟩
  have hno : ¬ ∃ m, Addresses s.topo ([] : Bytes) m := by
    rintro ⟨m, body, l, p, _, _, h0, _⟩
    have := congrArg List.length h0
    simp at this
  unfold SendBatch at h
  unfold groupOnionsByHostname at h
  rw [groupBy_fail _ _ _ [] hmem hno] at h
  exact h

/-- Such a round exists: the second onion of mix m(0,0) does not decrypt, the first does. -/
example : ∃ (st : Mixer.State) (acts : List Mixer.Action) (b : MixOutput), Mixer.exec Mixer.Ex.env Mixer.Ex.s0 acts = some st ∧
    st.crashed = false ∧ Mixer.delivered acts Mixer.Ex.m00.name = [Mixer.Ex.o1, [9, 0, 0, 0, 0, 0, 0, 0]] ∧
    Mixer.Ex.env.decrypt [9, 0, 0, 0, 0, 0, 0, 0] = .error (.err .unknown "mac") ∧
    Mixer.workloadOf Mixer.Ex.w Mixer.Ex.m00.name = 2 ∧ Mixer.Ex.m00.layer + 1 ≠ Mixer.Ex.topo.layers.length ∧ b ∈ st.sent ∧
    b.logicalSender = Mixer.Ex.m00.name :=
  ⟨_, [.call [Mixer.Ex.batch [Mixer.Ex.o1, [9, 0, 0, 0, 0, 0, 0, 0]]], .addStep, .addStep, .addStep, .take, .take, .finish 1, .addStep, .addStep, .finish 0,
    .shuffle 0 [[0,0,0,0],[0,0,0,0],[0,0,0,0],[0,0,0,0]], .send 0], _, rfl, rfl, by decide, rfl, by decide, by decide, List.mem_singleton.2 rfl, rfl⟩

end Resmix.Sender
