import Verif.Proofs.Config
set_option autoImplicit false
/-
C39: the configurations created by config.CreateSystemConfigs fit together (config/config.go).
-/
namespace Resmix.Config
open Tibe

/-- `cs` are the server configurations created for `addrs` with polynomials of degree `d` (one DKG polynomial and one per server, all
random). -/
structure Created (B : Bls) (addrs : List Str) (d : Nat) (dkg : Poly) (polys : List Poly) (cs : List ServerConfig) : Prop where
  addresses_distinct : addrs.Nodup
  servers_below : addrs.length < 2 ^ 32
  degree_below : d < addrs.length
  one_poly_each : polys.length = addrs.length
  degree : ∀ p ∈ dkg :: polys, p.coefs.length = d + 1
  created : createConfigs B addrs d dkg polys = .ok cs

theorem Created.good {B : Bls} {addrs : List Str} {d : Nat} {dkg : Poly} {polys : List Poly} {cs : List ServerConfig}
    (h : Created B addrs d dkg polys cs) : Good addrs d dkg polys :=
  ⟨h.addresses_distinct, h.servers_below, h.one_poly_each, fun p hp => h.degree p (List.mem_cons_of_mem _ hp), h.degree _ List.mem_cons_self,
    h.degree_below⟩

theorem Created.inv {B : Bls} {addrs : List Str} {d : Nat} {dkg : Poly} {polys : List Poly} {cs : List ServerConfig}
    (h : Created B addrs d dkg polys cs) : cs.length = addrs.length ∧ ∀ j sc, cs[j]? = some sc → CfgInv B addrs d dkg polys polys.length j sc := by
  obtain ⟨cs', h1, h2, h3⟩ := createConfigs_spec (B := B) h.good
  rw [h.created] at h1; injection h1 with h1; subst h1
  exact ⟨h2, h3⟩

/-- Everything `node_spec` says, from `Created`. -/
theorem Created.node {B : Bls} {addrs : List Str} {d : Nat} {dkg : Poly} {polys : List Poly} {cs : List ServerConfig}
    (h : Created B addrs d dkg polys cs) {j : Nat} {sc : ServerConfig} (hj : cs[j]? = some sc) {res : Go (Node B)}
    (hres : CreateTIBENode B sc res) : ∃ (p : Poly) (n : Node B), polys[j]? = some p ∧ p.coefs.length = d + 1 ∧ res = .ok n ∧
      addrs[j]? = some sc.hostname ∧ n.secret = p.eval 0 ∧ n.pk = p.eval 0 • B.gen1 ∧
      ∀ (i : Nat) p h, polys[i]? = some p → addrs[i]? = some h → n.shares.lookup h = some (vssOf B p j) := by
  obtain ⟨hl, hinv⟩ := h.inv
  have hjl : j < polys.length := by rw [h.one_poly_each, ← hl]; exact (List.getElem?_eq_some_iff.1 hj).1
  have hd := h.degree_below
  have hs := h.servers_below
  obtain ⟨n, h1, h2, h3, h4⟩ := node_spec h.good (hinv j sc hj) (by omega) (List.getElem?_eq_getElem hjl) hres
  exact ⟨_, n, List.getElem?_eq_getElem hjl, h.degree _ (List.mem_cons_of_mem _ (List.getElem_mem hjl)), h1, (hinv j sc hj).host, h2, h3, h4⟩

/-- C39: creating the configurations succeeds, one per address in the order given, and every server builds its node and its
publisher from its configuration without error, whatever the map iteration orders. -/
theorem C39_all_built (B : Bls) (addrs : List Str) (d : Nat) (dkg : Poly) (polys : List Poly) (hnd : addrs.Nodup)
    (hn : addrs.length < 2 ^ 32) (hd : d < addrs.length) (hp : polys.length = addrs.length)
    (hdeg : ∀ p ∈ dkg :: polys, p.coefs.length = d + 1) :
    ∃ cs, Created B addrs d dkg polys cs ∧ cs.map (fun sc => sc.hostname) = addrs ∧
      (∀ sc ∈ cs, ∀ res, CreateTIBENode B sc res → ∃ n, res = .ok n) ∧
      (∀ sc ∈ cs, ∀ res, CreateTIBEPublisher B sc res → ∃ pl, res = .ok pl) := by
  have hg : Good addrs d dkg polys := ⟨hnd, hn, hp, fun p hp => hdeg p (List.mem_cons_of_mem _ hp), hdeg _ List.mem_cons_self, hd⟩
  obtain ⟨cs, h1, h2, h3⟩ := createConfigs_spec (B := B) hg
  have hc : Created B addrs d dkg polys cs := ⟨hnd, hn, hd, hp, hdeg, h1⟩
  refine ⟨cs, hc, ?_, ?_, ?_⟩
  · refine List.ext_getElem? ?_
    intro j
    rw [List.getElem?_map]
    cases hj : cs[j]? with
    | none =>
      have : cs.length ≤ j := List.getElem?_eq_none_iff.1 hj
      rw [List.getElem?_eq_none_iff.2 (by omega)]; rfl
    | some sc => rw [(h3 j sc hj).host]; rfl
  · intro sc hsc res hres
    obtain ⟨j, hj⟩ := List.mem_iff_getElem?.1 hsc
    obtain ⟨_, n, _, _, h, _⟩ := hc.node hj hres
    exact ⟨n, h⟩
  · intro sc hsc res hres
    obtain ⟨j, hj⟩ := List.mem_iff_getElem?.1 hsc
    obtain ⟨pl, h, _⟩ := publisher_spec hg (h3 j sc hj) hres
    exact ⟨pl, h⟩

/-- C39 (encryption): what any server encrypts for the host of any server under any id, that server's own node decrypts. -/
theorem C39_encrypt_decrypt (B : Bls) (addrs : List Str) (d : Nat) (dkg : Poly) (polys : List Poly) (cs : List ServerConfig)
    (h : Created B addrs d dkg polys cs) (sender receiver : ServerConfig) (hs : sender ∈ cs) (hr : receiver ∈ cs)
    (snode rnode : Node B) (hsn : CreateTIBENode B sender (.ok snode)) (hrn : CreateTIBENode B receiver (.ok rnode))
    (r : Fr) (iv id msg : Bytes) (hiv : iv.length = 16) :
    ∃ c, snode.encryptFor r iv receiver.hostname id msg = .ok c ∧ (decrypt (rnode.decrypter id) c).1 = .ok msg := by
  obtain ⟨i, hi⟩ := List.mem_iff_getElem?.1 hs
  obtain ⟨j, hj⟩ := List.mem_iff_getElem?.1 hr
  obtain ⟨_, sn, _, _, h1, _, _, _, hsh⟩ := h.node hi hsn
  injection h1 with h1; subst h1
  obtain ⟨p, rn, hp, hpl, h2, hh, hsec, _⟩ := h.node hj hrn
  injection h2 with h2; subst h2
  have hne : p.coefs ≠ [] := by intro h0; rw [h0] at hpl; simp at hpl
  obtain ⟨c, hc, hdec⟩ := C30_encrypt_for B p _ snode (node_new hne) receiver.hostname (holds_of_lookup hne (hsh j p _ hp hh)) r iv id msg hiv
  refine ⟨c, hc, ?_⟩
  rw [← hdec]; simp only [Node.decrypter, hsec]

/-- C39 (escrow): the votes of any degree+2 or more different servers for host `h` and any id are all accepted by every server, and
reconstruct there exactly the key with which `h` itself decrypts. -/
theorem C39_votes_reconstruct (B : Bls) (addrs : List Str) (d : Nat) (dkg : Poly) (polys : List Poly) (cs : List ServerConfig)
    (h : Created B addrs d dkg polys cs) (target at_ : ServerConfig) (ht : target ∈ cs) (ha : at_ ∈ cs)
    (tnode anode : Node B) (htn : CreateTIBENode B target (.ok tnode)) (han : CreateTIBENode B at_ (.ok anode)) (id : Bytes)
    (voters : List ServerConfig) (hv : ∀ sc ∈ voters, sc ∈ cs) (hnd : (voters.map fun sc => sc.hostname).Nodup)
    (hlen : d + 2 ≤ voters.length) (votes : List (Vote B))
    (hvotes : List.Forall₂ (fun sc v => ∃ n, CreateTIBENode B sc (.ok n) ∧ n.vote target.hostname id = .ok v) voters votes) :
    (∀ v ∈ votes, anode.validateVote target.hostname v = .ok ()) ∧
    anode.reconstructDecrypter target.hostname votes = .ok (tnode.decrypter id) := by
  obtain ⟨j, hj⟩ := List.mem_iff_getElem?.1 ht
  obtain ⟨a, hja⟩ := List.mem_iff_getElem?.1 ha
  obtain ⟨p, tn, hp, hpl, h2, hh, hsec, _⟩ := h.node hj htn
  injection h2 with h2; subst h2
  obtain ⟨_, an, _, _, h1, _, _, _, hsh⟩ := h.node hja han
  injection h1 with h1; subst h1
  have hne : p.coefs ≠ [] := by intro h0; rw [h0] at hpl; simp at hpl
  have hhold := holds_of_lookup hne (hsh j p _ hp hh)
  -- each vote is the honest vote of that server's share
  let idx : Str → Nat := fun s => addrs.findIdx (· = s)
  have hidx : ∀ i s, addrs[i]? = some s → idx s = i := by
    intro i s hs
    obtain ⟨hil, hie⟩ := List.getElem?_eq_some_iff.1 hs
    rw [List.findIdx_eq hil]
    refine ⟨by simpa using hie, ?_⟩
    intro i' hi'
    simp only [decide_eq_false_iff_not]
    intro he
    have := nodup_getElem?_inj h.addresses_distinct (List.getElem?_eq_some_iff.2 ⟨by omega, he⟩) hs
    omega
  have hpos : ∀ sc ∈ cs, ∃ i, cs[i]? = some sc ∧ addrs[i]? = some sc.hostname ∧ i < addrs.length := by
    intro sc hsc
    obtain ⟨i, hi⟩ := List.mem_iff_getElem?.1 hsc
    have := (h.inv.2 i sc hi).host
    exact ⟨i, hi, this, (List.getElem?_eq_some_iff.1 this).1⟩
  have hvs : votes = (voters.map fun sc => ((idx sc.hostname : Nat) : Int) + 1).map (honestVote B p id) := by
    rw [List.map_map]
    clear hnd hlen
    induction hvotes with
    | nil => rfl
    | @cons sc v l l' hx _ ih =>
      rw [List.map_cons, ← ih (fun sc hsc => hv sc (List.mem_cons_of_mem _ hsc))]
      obtain ⟨n, hn, hvt⟩ := hx
      obtain ⟨i, hi, hhi, _⟩ := hpos sc (hv sc List.mem_cons_self)
      obtain ⟨_, n', _, _, h1, _, _, _, hsh'⟩ := h.node hi hn
      injection h1 with h1; subst h1
      unfold Node.vote at hvt
      rw [hsh' j p _ hp hh] at hvt
      simp only at hvt
      injection hvt with hvt
      congr 1
      rw [← hvt]
      simp only [Function.comp, honestVote, hidx i _ hhi, vssOf, shareOf, eval_value]
  have hn32 := h.servers_below
  have hnew := node_new (B := B) hne
  have hrec := C34_degree_plus_two_partial B p d hpl _ anode hnew target.hostname hhold id
    (voters.map fun sc => ((idx sc.hostname : Nat) : Int) + 1) ?_ ?_ (by rw [List.length_map]; exact hlen)
  · rw [hvs]
    refine ⟨?_, ?_⟩
    · intro v hv
      rw [List.mem_map] at hv; obtain ⟨i, _, rfl⟩ := hv
      exact (C32_validate_vote B anode _ p hhold _).1.2 rfl
    · rw [hrec]; simp only [Node.decrypter, hsec]
  · intro i hi
    rw [List.mem_map] at hi
    obtain ⟨sc, hsc, rfl⟩ := hi
    obtain ⟨i, _, hhi, hil⟩ := hpos sc (hv sc hsc)
    rw [hidx i _ hhi]
    simp only [IsInt]; omega
  · have hmm : (voters.map fun sc => ((idx sc.hostname : Nat) : Int) + 1) = (voters.map fun sc => sc.hostname).map fun s => ((idx s : Nat) : Int) + 1 := by
      rw [List.map_map]; rfl
    rw [hmm]
    refine List.Nodup.map_on ?_ hnd
    intro s hs s' hs' he
    rw [List.mem_map] at hs hs'
    obtain ⟨sc, hsc, rfl⟩ := hs
    obtain ⟨sc', hsc', rfl⟩ := hs'
    obtain ⟨i, _, hhi, _⟩ := hpos sc (hv sc hsc)
    obtain ⟨i', _, hhi', _⟩ := hpos sc' (hv sc' hsc')
    rw [hidx i _ hhi, hidx i' _ hhi'] at he
    have : i = i' := by omega
    subst this
    rw [hhi] at hhi'; injection hhi'

/-- C39 (publishers): all publishers have the same shared public key, and what any of them hides, any of them reveals from the
votes of any degree+1 or more different servers. -/
theorem C39_publishers (B : Bls) (addrs : List Str) (d : Nat) (dkg : Poly) (polys : List Poly) (cs : List ServerConfig)
    (h : Created B addrs d dkg polys cs) (sa sb : ServerConfig) (ha : sa ∈ cs) (hb : sb ∈ cs) (a b : Player B)
    (hpa : CreateTIBEPublisher B sa (.ok a)) (hpb : CreateTIBEPublisher B sb (.ok b)) :
    a.sharedPublicKey = b.sharedPublicKey ∧
    ∀ (r : Fr) (iv id msg : Bytes), iv.length = 16 → ∀ (voters : List ServerConfig), (∀ sc ∈ voters, sc ∈ cs) →
      (voters.map fun sc => sc.hostname).Nodup → d + 1 ≤ voters.length → ∀ votes : List (Vote B),
      List.Forall₂ (fun sc v => ∃ pl, CreateTIBEPublisher B sc (.ok pl) ∧ v = pl.vote id) voters votes →
      ∃ s, a.hide r iv id msg = .ok s ∧ (b.reveal votes s).1 = .ok msg := by
  have hg := h.good
  have hinv := h.inv.2
  have hn := h.servers_below
  have hdeg := hg.dkg
  have hpub : ∀ sc ∈ cs, ∀ pl, CreateTIBEPublisher B sc (.ok pl) → ∃ i, cs[i]? = some sc ∧ IsPublisher dkg addrs.length i pl := by
    intro sc hsc pl hpl
    obtain ⟨i, hi⟩ := List.mem_iff_getElem?.1 hsc
    obtain ⟨pl', h1, h2⟩ := publisher_spec hg (hinv i sc hi) hpl
    injection h1 with h1; subst h1
    exact ⟨i, hi, h2⟩
  obtain ⟨i, hi, hia⟩ := hpub sa ha a hpa
  obtain ⟨j, hj, hjb⟩ := hpub sb hb b hpb
  have hle : dkg.coefs.length ≤ addrs.length := by rw [hdeg]; exact hg.dle
  have hspec := fun {k} {pl : Player B} (hk : IsPublisher dkg addrs.length k pl) => isPublisher_spec (by omega) hle hk
  refine ⟨by rw [(hspec hia).2.2.2.1, (hspec hjb).2.2.2.1], ?_⟩
  intro r iv id msg hiv voters hv hnd hlen votes hvotes
  obtain ⟨s, hs, hok, -⟩ := C37_hide_reveal_partial B dkg addrs.length (by omega) hle i j a b hia hjb r iv id msg hiv votes
  have hvl := hvotes.length_eq
  refine ⟨s, hs, hok (by omega) ?_ ?_⟩
  · intro v hvm0
    have hvm := List.mem_of_mem_take hvm0
    clear hvm0 hok hvl hnd hlen
    induction hvotes with
    | nil => cases hvm
    | @cons sc v' l l' hx _ ih =>
      rcases List.mem_cons.1 hvm with rfl | hvm
      · obtain ⟨pl, hpl, hve⟩ := hx
        obtain ⟨k, _, hk⟩ := hpub sc (hv sc List.mem_cons_self) pl hpl
        exact ⟨k, pl, hk, hve⟩
      · exact ih (fun sc hsc => hv sc (List.mem_cons_of_mem _ hsc)) hvm
  · rw [List.map_take]
    refine (List.take_sublist _ _).nodup ?_
    have hmap : ∀ v ∈ votes, ∃ sc ∈ voters, ∃ i : Nat, cs[i]? = some sc ∧ v.index = (i : Int) + 1 := by
      clear hok hvl hnd hlen
      induction hvotes with
      | nil => intro v hv'; cases hv'
      | @cons sc v' l l' hx _ ih =>
        intro v hvm
        rcases List.mem_cons.1 hvm with rfl | hvm
        · obtain ⟨pl, hpl, hve⟩ := hx
          obtain ⟨k, hki, hk⟩ := hpub sc (hv sc List.mem_cons_self) pl hpl
          exact ⟨sc, List.mem_cons_self, k, hki, by rw [hve]; exact (hspec hk).2.1⟩
        · obtain ⟨sc', h1, h2⟩ := ih (fun sc hsc => hv sc (List.mem_cons_of_mem _ hsc)) v hvm
          exact ⟨sc', List.mem_cons_of_mem _ h1, h2⟩
    clear hok hvl hlen hmap
    induction hvotes with
    | nil => simp
    | @cons sc v' l l' hx htl ih =>
      rw [List.map_cons, List.nodup_cons] at hnd ⊢
      refine ⟨?_, ih (fun sc hsc => hv sc (List.mem_cons_of_mem _ hsc)) hnd.2⟩
      intro hin
      rw [List.mem_map] at hin
      obtain ⟨w, hw, hwe⟩ := hin
      have hmem : ∃ sc' ∈ l, ∃ pl, CreateTIBEPublisher B sc' (.ok pl) ∧ w = pl.vote id := by
        clear ih hnd hv
        induction htl with
        | nil => cases hw
        | @cons sc2 v2 l2 l2' hx2 _ ih2 =>
          rcases List.mem_cons.1 hw with rfl | hw
          · exact ⟨sc2, List.mem_cons_self, hx2⟩
          · obtain ⟨q, hq, hq'⟩ := ih2 hw; exact ⟨q, List.mem_cons_of_mem _ hq, hq'⟩
      obtain ⟨sc', hsc', pl', hpl', rfl⟩ := hmem
      obtain ⟨pl, hpl, rfl⟩ := hx
      obtain ⟨k, hki, hk⟩ := hpub sc (hv sc List.mem_cons_self) pl hpl
      obtain ⟨k', hki', hk'⟩ := hpub sc' (hv sc' (List.mem_cons_of_mem _ hsc')) pl' hpl'
      have e1 := (hspec hk).2.1
      have e2 := (hspec hk').2.1
      simp only [Player.vote] at hwe
      rw [e1, e2] at hwe
      have : k = k' := by omega
      subst this
      rw [hki] at hki'; injection hki' with hki'; subst hki'
      exact hnd.1 (List.mem_map.2 ⟨sc, hsc', rfl⟩)

/-- Three servers, degree 1: the configurations exist, and three of them can vote (degree+2). -/
example : ∃ cs, Created Bls.toy [[97], [98], [99]] 1 ⟨[5, 3]⟩ [⟨[7, 1]⟩, ⟨[8, 2]⟩, ⟨[9, 4]⟩] cs ∧ cs.length = 1 + 2 ∧
    (cs.map fun sc => sc.hostname).Nodup := by
  obtain ⟨cs, hc, hh, _⟩ := C39_all_built Bls.toy [[97], [98], [99]] 1 ⟨[5, 3]⟩ [⟨[7, 1]⟩, ⟨[8, 2]⟩, ⟨[9, 4]⟩]
    (by decide) (by decide) (by decide) (by decide) (by simp)
  refine ⟨cs, hc, by rw [← List.length_map (f := fun sc : ServerConfig => sc.hostname), hh]; rfl, by rw [hh]; decide⟩

end Resmix.Config
