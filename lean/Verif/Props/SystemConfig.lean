import Verif.Model.SystemConfig
import Verif.Props.Config
import Verif.Props.Topology
import Verif.Props.Network
set_option autoImplicit false
/-
C138: the configurations of a whole system fit together.
-/
namespace Resmix.Config
open Tibe Rrpc

/-- What the configuration of a whole system must satisfy, for the servers `addrs` and `L` layers: see C138. -/
structure FitsTogether (B : Bls) (addrs : List Str) (d L : Nat) (dkg : Poly) (polys : List Poly) (keys : List (Bytes × Bytes)) (sys : SystemSetup) : Prop where
  /-- the topology is that of the addresses, the servers are those of the addresses, in order -/
  topo : Topology.createCascade addrs L = .ok sys.topo
  hosts : sys.servers.map (fun s => s.base.hostname) = addrs
  created : Created B addrs d dkg polys (sys.servers.map fun s => s.base)
  keys : sys.servers.map (fun s => (s.secretKey, s.publicKey)) = keys
  /-- GetServerConfig finds each server by its name, and nothing else -/
  found : ∀ s ∈ sys.servers, sys.getServerConfig s.base.hostname = some s
  unknown : ∀ h, h ∉ addrs → sys.getServerConfig h = none
  /-- every mix of the topology belongs to exactly one server, the one that hosts it; a server has a mix in every layer -/
  mixes : ∀ m ∈ sys.topo.layers.flatten, ∃ s ∈ sys.servers, s.base.hostname = m.hostname ∧ ∀ s' ∈ sys.servers, m.name ∈ s'.mixes ↔ s' = s
  layers : ∀ s ∈ sys.servers, s.mixes.length = L ∧ ∀ l, l < L → ∃ i m, sys.topo.mixAt l i = some m ∧ m.hostname = s.base.hostname ∧ s.mixes[l]? = some m.name
  /-- all coordinators work on the same network, which knows every server with its key and nobody else -/
  sameNet : ∀ s ∈ sys.servers, ∀ s' ∈ sys.servers, s.network = s'.network
  knows : ∀ s ∈ sys.servers, ∀ s' ∈ sys.servers, s.network.getPublicKey s'.base.hostname = .ok s'.publicKey ∧ s.network.getHostname s'.publicKey = s'.base.hostname ∧
    s.network.containKey s'.publicKey = true ∧ s.network.serverAddresses[s.network.getRelayIndex s'.base.hostname]? = some s'.base.hostname
  only : ∀ s ∈ sys.servers, s.network.serverAddresses.Perm addrs
  /-- the coordinator can be created for 2 to 256 servers; with one server that panics -/
  coordinator : ∀ s ∈ sys.servers, 2 ≤ addrs.length → addrs.length ≤ 256 → ∃ C, NewCoordinator s.network (.ok C)
  single : ∀ s ∈ sys.servers, addrs.length = 1 → ∀ res, NewCoordinator s.network res ↔ res = .error .panic

theorem zipWith_all {α β γ : Type} {f : α → β → γ} {P : γ → Prop} {a : List α} {b : List β} (h : ∀ (i : Nat) (x : α) (y : β), a[i]? = some x → b[i]? = some y → P (f x y)) :
    ∀ z ∈ List.zipWith f a b, P z := by
  intro z hz
  obtain ⟨i, hi⟩ := List.getElem?_of_mem hz
  rw [List.getElem?_zipWith] at hi
  cases ha : a[i]? with
  | none => rw [ha] at hi; cases hi
  | some x =>
    cases hb : b[i]? with
    | none => rw [ha, hb] at hi; cases hi
    | some y => rw [ha, hb] at hi; injection hi with hi; subst hi; exact h i x y ha hb

theorem new_perm (tau : Int) (confs : List ServerData) (h : ∀ s ∈ confs, ∃ a k, Registers s a k) :
    (Network.new tau confs).serverAddresses.Perm (confs.map ServerData.address) := by
  have key : ∀ (l : List ServerData) (n : Network), (∀ s ∈ l, ∃ a k, Registers s a k) →
      (l.foldl Network.addServer n).serverAddresses = n.serverAddresses ++ l.map ServerData.address := by
    intro l
    induction l with
    | nil => intro n _; simp
    | cons s l ih =>
      intro n hl
      obtain ⟨a, k, h1, h2, h3⟩ := hl s List.mem_cons_self
      rw [List.foldl_cons, ih _ (fun x hx => hl x (List.mem_cons_of_mem _ hx))]
      unfold Network.addServer
      rw [h3]
      dsimp only
      rw [if_neg (by rw [h1]; exact h2)]
      simp
  unfold Network.new
  dsimp only
  unfold Network.sortStrings
  refine (List.mergeSort_perm _ _).trans ?_
  rw [key _ _ h]
  simp

/-- C138. Creating the configurations of a whole system (distinct non-empty addresses, a degree below their number, key pairs with distinct public keys) always succeeds, and whatever
order maps are iterated in and sort.Slice leaves equal elements in, the configurations fit together. -/
theorem C138_fits_together (B : Bls) (addrs : List Str) (d L : Nat) (dkg : Poly) (polys : List Poly) (keys : List (Bytes × Bytes)) (hnd : addrs.Nodup) (hne : ∀ a ∈ addrs, a ≠ [])
    (hn : addrs.length < 2 ^ 32) (hd : d < addrs.length) (hp : polys.length = addrs.length) (hdeg : ∀ p ∈ dkg :: polys, p.coefs.length = d + 1)
    (hk : keys.length = addrs.length) (hkd : (keys.map Prod.snd).Nodup) :
    (∃ res, CreateSystemConfigs B addrs d L dkg polys keys res) ∧
    ∀ res, CreateSystemConfigs B addrs d L dkg polys keys res → ∃ sys, res = .ok sys ∧ FitsTogether B addrs d L dkg polys keys sys := by
  obtain ⟨t, ht, hC01⟩ := Topology.C01_layers_are_permutations addrs L
  obtain ⟨cs, hcr, hh, hx1, hx2⟩ := C39_all_built B addrs d dkg polys hnd hn hd hp hdeg
  have hlen : cs.length = addrs.length := by rw [← hh]; simp
  refine ⟨?_, ?_⟩
  · have : ∃ mixes : List (List Str), List.Forall₂ (fun sc ms => Topology.SetMixNames t sc.hostname ms) cs mixes := by
      have hin : ∀ sc ∈ cs, sc.hostname ∈ addrs := fun sc hsc => by rw [← hh]; exact List.mem_map.2 ⟨sc, hsc, rfl⟩
      clear hcr hh hlen hx1 hx2
      induction cs with
      | nil => exact ⟨[], .nil⟩
      | cons sc cs ih =>
        obtain ⟨ms, hms⟩ := ih (fun x hx => hin x (List.mem_cons_of_mem _ hx))
        obtain ⟨m, hm⟩ := (Topology.C05_server_mix_list addrs hnd L t ht sc.hostname (hin sc List.mem_cons_self)).1
        exact ⟨m :: ms, .cons hm hms⟩
    obtain ⟨mixes, hm⟩ := this
    have heq : ∀ res, CreateSystemConfigs B addrs d L dkg polys keys res ↔ ∃ mixes : List (List Str), List.Forall₂ (fun sc ms => Topology.SetMixNames t sc.hostname ms) cs mixes ∧
        res = .ok { servers := List.zipWith (fun sc (mk : List Str × (Bytes × Bytes)) =>
                      { base := sc, mixes := mk.1, secretKey := mk.2.1, publicKey := mk.2.2, peers := peersOf cs keys }) cs (mixes.zip keys)
                    topo := t } := by
      intro res
      unfold CreateSystemConfigs
      rw [ht]
      dsimp only
      rw [hcr.created]
    exact ⟨_, (heq _).2 ⟨mixes, hm, rfl⟩⟩
  · intro res hres
    unfold CreateSystemConfigs at hres
    rw [ht] at hres
    dsimp only at hres
    rw [hcr.created] at hres
    obtain ⟨mixes, hm, rfl⟩ := hres
    refine ⟨_, rfl, ?_⟩
    have hml : mixes.length = cs.length := hm.length_eq.symm
    -- the servers by index
    have hget : ∀ (i : Nat) (s : ServerSetup), (List.zipWith (fun sc (mk : List Str × (Bytes × Bytes)) =>
        ({ base := sc, mixes := mk.1, secretKey := mk.2.1, publicKey := mk.2.2, peers := peersOf cs keys } : ServerSetup)) cs (mixes.zip keys))[i]? = some s →
        cs[i]? = some s.base ∧ mixes[i]? = some s.mixes ∧ keys[i]? = some (s.secretKey, s.publicKey) ∧ s.peers = peersOf cs keys := by
      intro i s hs
      rw [List.getElem?_zipWith] at hs
      cases ha : cs[i]? with
      | none => rw [ha] at hs; cases hs
      | some x =>
        cases hb : (mixes.zip keys)[i]? with
        | none => rw [ha, hb] at hs; cases hs
        | some y =>
          rw [ha, hb] at hs
          injection hs with hs; subst hs
          rw [List.getElem?_zip_eq_some] at hb
          exact ⟨rfl, hb.1, hb.2, rfl⟩
    have hpeers : ∀ (i : Nat) (sc : ServerConfig) (k : Bytes × Bytes), cs[i]? = some sc → keys[i]? = some k → (peersOf cs keys)[i]? = some { address := sc.hostname, publickey := some k.2 } := by
      intro i sc k h1 h2
      unfold peersOf
      rw [List.getElem?_zipWith, h1, h2]
    have hpaddr : (peersOf cs keys).map ServerData.address = addrs := by
      unfold peersOf
      rw [List.map_zipWith]
      refine List.ext_getElem? fun i => ?_
      rw [List.getElem?_zipWith, ← hh, List.getElem?_map]
      cases ha : cs[i]? with
      | none => rfl
      | some x =>
        have hi : i < keys.length := by rw [hk, ← hlen]; exact (List.getElem?_eq_some_iff.1 ha).1
        rw [List.getElem?_eq_getElem hi]; rfl
    have hplen : (peersOf cs keys).length = addrs.length := by rw [← hpaddr]; simp
    have hpnd : (peersOf cs keys).Nodup := by
      refine List.Nodup.of_map ServerData.address ?_
      rw [hpaddr]; exact hnd
    have hpreg : ∀ s ∈ peersOf cs keys, ∃ a k, Registers s a k := by
      intro s hs
      have hsa : s.address ∈ addrs := by rw [← hpaddr]; exact List.mem_map.2 ⟨s, hs, rfl⟩
      refine zipWith_all (P := fun s => s.address ≠ [] → ∃ a k, Registers s a k) ?_ s hs (hne _ hsa)
      intro i x y _ _ hx
      exact ⟨_, _, rfl, hx, rfl⟩
    generalize hss : (List.zipWith (fun sc (mk : List Str × (Bytes × Bytes)) =>
        ({ base := sc, mixes := mk.1, secretKey := mk.2.1, publicKey := mk.2.2, peers := peersOf cs keys } : ServerSetup)) cs (mixes.zip keys)) = ss at hget
    have hsl : ss.length = addrs.length := by rw [← hss]; simp [hml, hlen, hk]
    have hmem : ∀ s ∈ ss, ∃ i : Nat, ss[i]? = some s ∧ cs[i]? = some s.base ∧ mixes[i]? = some s.mixes ∧ keys[i]? = some (s.secretKey, s.publicKey) ∧ s.peers = peersOf cs keys := by
      intro s hs
      obtain ⟨i, hi⟩ := List.getElem?_of_mem hs
      exact ⟨i, hi, hget i s hi⟩
    have hbase : ss.map (fun s => s.base) = cs := by
      refine List.ext_getElem? fun i => ?_
      rw [List.getElem?_map]
      cases hs : ss[i]? with
      | none =>
        rw [List.getElem?_eq_none_iff] at hs
        symm
        rw [Option.map_none, List.getElem?_eq_none_iff]; omega
      | some s => rw [(hget i s hs).1]; rfl
    have hhosts : ss.map (fun s => s.base.hostname) = addrs := by
      rw [← hh, ← hbase, List.map_map]; rfl
    have hkeys : ss.map (fun s => (s.secretKey, s.publicKey)) = keys := by
      refine List.ext_getElem? fun i => ?_
      rw [List.getElem?_map]
      cases hs : ss[i]? with
      | none =>
        rw [List.getElem?_eq_none_iff] at hs
        symm
        rw [Option.map_none, List.getElem?_eq_none_iff]; omega
      | some s => rw [(hget i s hs).2.2.1]; rfl
    have huniq : ∀ s ∈ ss, ∀ s' ∈ ss, s.base.hostname = s'.base.hostname → s = s' := by
      intro s hs s' hs' he
      exact List.inj_on_of_nodup_map (by rw [hhosts]; exact hnd) hs hs' he
    have hina : ∀ s ∈ ss, s.base.hostname ∈ addrs := fun s hs => by rw [← hhosts]; exact List.mem_map.2 ⟨s, hs, rfl⟩
    have hmixes : ∀ s ∈ ss, Topology.SetMixNames t s.base.hostname s.mixes := by
      intro s hs
      obtain ⟨i, hi, h1, h2, _⟩ := hmem s hs
      obtain ⟨a1, a2⟩ := List.getElem?_eq_some_iff.1 h1
      obtain ⟨b1, b2⟩ := List.getElem?_eq_some_iff.1 h2
      have := List.Forall₂.get hm a1 b1
      simpa [a2, b2] using this
    have hnet : ∀ s ∈ ss, s.network = configNetwork (peersOf cs keys) := by
      intro s hs
      obtain ⟨i, hi, h1, h2, h3, h4⟩ := hmem s hs
      unfold ServerSetup.network; rw [h4]
    have hregs : ∀ s ∈ ss, Registers { address := s.base.hostname, publickey := some s.publicKey } s.base.hostname s.publicKey ∧
        ({ address := s.base.hostname, publickey := some s.publicKey } : ServerData) ∈ peersOf cs keys := by
      intro s hs
      obtain ⟨i, hi, h1, h2, h3, h4⟩ := hmem s hs
      exact ⟨⟨rfl, hne _ (hina s hs), rfl⟩, List.mem_of_getElem? (hpeers i _ _ h1 h3)⟩
    have hpk : ∀ s ∈ peersOf cs keys, ∀ s' ∈ peersOf cs keys, ∀ a a' k, Registers s a k → Registers s' a' k → s = s' := by
      intro s hs s' hs' a a' k h1 h2
      obtain ⟨i, hi⟩ := List.getElem?_of_mem hs
      obtain ⟨j, hj⟩ := List.getElem?_of_mem hs'
      have ki : ∀ (i : Nat) (s : ServerData), (peersOf cs keys)[i]? = some s → ((keys.map Prod.snd)[i]?) = s.publickey := by
        intro i s hi
        unfold peersOf at hi
        rw [List.getElem?_zipWith] at hi
        rw [List.getElem?_map]
        cases ha : cs[i]? with
        | none => rw [ha] at hi; cases hi
        | some x =>
          cases hb : keys[i]? with
          | none => rw [ha, hb] at hi; cases hi
          | some y => rw [ha, hb] at hi; injection hi with hi; subst hi; rfl
      have e1 := ki i s hi
      have e2 := ki j s' hj
      rw [h1.2.2] at e1
      rw [h2.2.2] at e2
      have : i = j := by
        obtain ⟨q1, q2⟩ := List.getElem?_eq_some_iff.1 e1
        obtain ⟨q3, q4⟩ := List.getElem?_eq_some_iff.1 e2
        exact (List.Nodup.getElem_inj_iff hkd).1 (q2.trans q4.symm)
      subst this
      rw [hi] at hj
      injection hj
    have hpa : ∀ s ∈ peersOf cs keys, ∀ s' ∈ peersOf cs keys, ∀ a k k', Registers s a k → Registers s' a k' → s = s' := by
      intro s hs s' hs' a k k' h1 h2
      exact List.inj_on_of_nodup_map (by rw [hpaddr]; exact hnd) hs hs' (h1.1.trans h2.1.symm)
    have hconf := C51_configured (peersOf cs keys) hpreg
    rw [hplen] at hconf
    refine
      { topo := ht, hosts := hhosts, created := by dsimp only; rw [hbase]; exact hcr, keys := hkeys, found := ?_, unknown := ?_, mixes := ?_, layers := ?_
        sameNet := fun s hs s' hs' => by rw [hnet s hs, hnet s' hs'], knows := ?_, only := ?_, coordinator := ?_, single := ?_ }
    · intro s hs
      unfold SystemSetup.getServerConfig
      dsimp only
      cases hf : ss.find? (fun x => x.base.hostname = s.base.hostname) with
      | none =>
        rw [List.find?_eq_none] at hf
        exact absurd (by simp) (hf s hs)
      | some x =>
        have h1 := List.find?_some hf
        have h2 := List.mem_of_find?_eq_some hf
        rw [huniq x h2 s hs (by simpa using h1)]
    · intro h hh'
      unfold SystemSetup.getServerConfig
      rw [List.find?_eq_none]
      intro x hx he
      refine hh' ?_
      rw [← (by simpa using he : x.base.hostname = h)]
      exact hina x hx
    · intro m hmf
      obtain ⟨layer, hl1, hl2⟩ := List.mem_flatten.1 hmf
      have hma : m.hostname ∈ addrs := (hC01.2.1 layer hl1).subset (List.mem_map.2 ⟨m, hl2, rfl⟩)
      rw [← hhosts] at hma
      obtain ⟨s, hs, he⟩ := List.mem_map.1 hma
      refine ⟨s, hs, he, ?_⟩
      have hgm := ((Topology.C02_names_unique_and_lookup_exact addrs L t ht).2.2.2.2 m.name m).2 ⟨hmf, rfl⟩
      intro s' hs'
      rw [((Topology.C05_server_mix_list addrs hnd L t ht _ (hina s' hs')).2 _ (hmixes s' hs')).2.2 m.name]
      constructor
      · rintro ⟨m', h1, h2⟩
        rw [hgm] at h1
        injection h1 with h1
        subst h1
        exact huniq s' hs' s hs (h2.symm.trans he.symm)
      · rintro rfl
        exact ⟨m, hgm, he.symm⟩
    · intro s hs
      obtain ⟨h1, h2, _⟩ := (Topology.C05_server_mix_list addrs hnd L t ht _ (hina s hs)).2 _ (hmixes s hs)
      refine ⟨h1, fun l hl => ?_⟩
      obtain ⟨i, m, k1, k2, k3, k4⟩ := h2 l hl
      exact ⟨i, m, k1, k2, k4⟩
    · intro s hs s' hs'
      rw [hnet s hs]
      obtain ⟨r1, r2⟩ := hregs s' hs'
      have hl := C52_lookups ((((peersOf cs keys).length / 2 : Nat)) : Int) (peersOf cs keys) hpa hpk hpnd s'.base.hostname s'.publicKey
      have h2 := hl.2.1.2 ⟨_, r2, r1⟩
      exact ⟨hl.1.2 ⟨_, r2, r1⟩, h2.2, h2.1, (C52_relay_index _ (peersOf cs keys) s'.base.hostname ⟨_, r2, _, r1⟩).1⟩
    · intro s hs
      rw [hnet s hs, ← hpaddr]
      exact new_perm _ _ hpreg
    · intro s hs h2 h256
      rw [hnet s hs]
      exact (hconf.2.2.1 h2).2.2 h256
    · intro s hs h1
      rw [hnet s hs]
      exact hconf.2.2.2 (by omega)

theorem localAddresses_ok (n : Nat) : (localAddresses n).length = n ∧ (localAddresses n).Nodup ∧ ∀ a ∈ localAddresses n, a ≠ [] := by
  refine ⟨by simp [localAddresses], ?_, ?_⟩
  · unfold localAddresses
    refine List.Nodup.map ?_ List.nodup_range
    intro i j h
    have := dec_inj (List.append_cancel_left h)
    omega
  · intro a ha
    unfold localAddresses at ha
    obtain ⟨i, _, rfl⟩ := List.mem_map.1 ha
    simp [localhost]

/-- C138 for local systems: for every number of servers, degree below it and number of layers, CreateLocalSystemConfigs succeeds and gives a system of that many servers that fits
together. -/
theorem C138_local (B : Bls) (n d L : Nat) (dkg : Poly) (polys : List Poly) (keys : List (Bytes × Bytes)) (hn : n < 2 ^ 32) (hd : d < n) (hp : polys.length = n)
    (hdeg : ∀ p ∈ dkg :: polys, p.coefs.length = d + 1) (hk : keys.length = n) (hkd : (keys.map Prod.snd).Nodup) :
    (∃ res, CreateLocalSystemConfigs B n d L dkg polys keys res) ∧
    ∀ res, CreateLocalSystemConfigs B n d L dkg polys keys res → ∃ sys, res = .ok sys ∧ sys.servers.length = n ∧ FitsTogether B (localAddresses n) d L dkg polys keys sys := by
  obtain ⟨h1, h2, h3⟩ := localAddresses_ok n
  obtain ⟨k1, k2⟩ := C138_fits_together B (localAddresses n) d L dkg polys keys h2 h3 (by omega) (by omega) (by omega) hdeg (by omega) hkd
  refine ⟨k1, fun res hres => ?_⟩
  obtain ⟨sys, rfl, hf⟩ := k2 res hres
  refine ⟨sys, rfl, ?_, hf⟩
  have := congrArg List.length hf.hosts
  rw [List.length_map, h1] at this
  exact this

theorem local_example (n : Nat) (polys : List Poly) (keys : List (Bytes × Bytes)) (hn : n < 2 ^ 32) (h1 : 1 < n) (hp : polys.length = n) (hdeg : ∀ p ∈ (⟨[5, 3]⟩ : Poly) :: polys, p.coefs.length = 2)
    (hk : keys.length = n) (hkd : (keys.map Prod.snd).Nodup) : ∃ sys, CreateLocalSystemConfigs Bls.toy n 1 2 ⟨[5, 3]⟩ polys keys (.ok sys) ∧ sys.servers.length = n := by
  obtain ⟨⟨res, h⟩, h2⟩ := C138_local Bls.toy n 1 2 ⟨[5, 3]⟩ polys keys hn h1 hp hdeg hk hkd
  obtain ⟨sys, he, h3, _⟩ := h2 res h
  exact ⟨sys, he ▸ h, h3⟩

/-- A local system of three servers and two layers: its first server is "localhost:5050". -/
example : (∃ sys, CreateLocalSystemConfigs Bls.toy 3 1 2 ⟨[5, 3]⟩ [⟨[7, 1]⟩, ⟨[8, 2]⟩, ⟨[9, 4]⟩] [([1], [2]), ([3], [4]), ([5], [6])] (.ok sys) ∧ sys.servers.length = 3) ∧
    (localAddresses 3).head? = some [108, 111, 99, 97, 108, 104, 111, 115, 116, 58, 53, 48, 53, 48] := by
  refine ⟨local_example 3 _ _ (by decide) (by decide) rfl (by simp) rfl (by decide), ?_⟩
  have key : ∀ f n, n = 5050 → decAux (f + 1 + 1 + 1 + 1) n = [53, 48, 53, 48] := by
    intro f n hn
    subst hn
    norm_num [decAux]
    exact ⟨rfl, rfl, rfl, rfl⟩
  have h5 : dec 5050 = [53, 48, 53, 48] := key 5047 _ rfl
  show some (localhost ++ dec 5050) = _
  rw [h5]; rfl

end Resmix.Config
