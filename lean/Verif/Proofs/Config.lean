import Verif.Model.Config
import Verif.Proofs.Marshal
import Verif.Props.Ibe
set_option autoImplicit false
namespace Resmix.Config
open Tibe
variable {B : Bls}

/-- Share number `j+1` of polynomial `p`. -/
def shareOf (p : Poly) (j : Nat) : PolyShare := { index := (j : Int) + 1, value := p.eval ((j : Int) + 1) }

/-- What every server receives from the owner of `p`. -/
def vssOf (B : Bls) (p : Poly) (j : Nat) : VssShare B := { expoly := p.exponent B, share := shareOf p j, mpk := p.eval 0 • B.gen1 }

structure Good (addrs : List Str) (d : Nat) (dkg : Poly) (polys : List Poly) : Prop where
  nodup : addrs.Nodup
  small : addrs.length < 2 ^ 32
  plen : polys.length = addrs.length
  pdeg : ∀ p ∈ polys, p.coefs.length = d + 1
  dkg : dkg.coefs.length = d + 1
  dle : d + 1 ≤ addrs.length

structure CfgInv (B : Bls) (addrs : List Str) (d : Nat) (dkg : Poly) (polys : List Poly) (k : Nat) (j : Nat) (sc : ServerConfig) : Prop where
  host : addrs[j]? = some sc.hostname
  thr : sc.threshold = d + 1
  share : sc.secretDKGShare = (shareOf dkg j).marshal
  keys : sc.dkgPublicKeys = (dkgKeys B dkg addrs.length).map PublicKey.marshal
  poly : j < k → polys[j]?.map Poly.marshal = some sc.ibe.vssPolynomial
  ndp : GoMap.NodupKeys sc.ibe.vssExponentPolynomials
  dom : ∀ h b, sc.ibe.vssExponentPolynomials.lookup h = some b → ∃ i p, i < k ∧ addrs[i]? = some h ∧ polys[i]? = some p ∧ b = (p.exponent B).marshal
  exps : ∀ i p h, i < k → polys[i]? = some p → addrs[i]? = some h → sc.ibe.vssExponentPolynomials.lookup h = some (p.exponent B).marshal
  shares : ∀ i p h, i < k → polys[i]? = some p → addrs[i]? = some h → sc.ibe.nodeToSecretShare.lookup h = some (shareOf p j).marshal
  mpks : ∀ i p h, i < k → polys[i]? = some p → addrs[i]? = some h → sc.ibe.nodeToMasterPublicKey.lookup h = some (B.g1Bytes (p.eval 0 • B.gen1))
  ndm : GoMap.NodupKeys sc.ibe.nodeToMasterPublicKey
  domm : ∀ h b, sc.ibe.nodeToMasterPublicKey.lookup h = some b → ∃ i p, i < k ∧ addrs[i]? = some h ∧ polys[i]? = some p ∧ b = B.g1Bytes (p.eval 0 • B.gen1)

theorem nodup_getElem?_inj {α : Type} {l : List α} (hn : l.Nodup) {i j : Nat} {x : α} (hi : l[i]? = some x) (hj : l[j]? = some x) : i = j := by
  obtain ⟨hi', h1⟩ := List.getElem?_eq_some_iff.1 hi
  obtain ⟨hj', h2⟩ := List.getElem?_eq_some_iff.1 hj
  exact (List.Nodup.getElem_inj_iff hn).1 (h1.trans h2.symm)

theorem deal_inv {addrs : List Str} {d : Nat} {dkg : Poly} {polys : List Poly} (hg : Good addrs d dkg polys) {k : Nat} {p : Poly}
    (hk : polys[k]? = some p) {cs : List ServerConfig} (hl : cs.length = addrs.length)
    (hi : ∀ j sc, cs[j]? = some sc → CfgInv B addrs d dkg polys k j sc) :
    ∃ cs', deal B cs k p = .ok cs' ∧ cs'.length = addrs.length ∧ ∀ j sc, cs'[j]? = some sc → CfgInv B addrs d dkg polys (k + 1) j sc := by
  obtain ⟨hkl, hkp⟩ := List.getElem?_eq_some_iff.1 hk
  have hkc : k < cs.length := by rw [hl, ← hg.plen]; exact hkl
  have hsci : cs[k]? = some cs[k] := List.getElem?_eq_getElem hkc
  have hne : p.coefs ≠ [] := by
    intro h0
    have := hg.pdeg p (List.mem_of_getElem? hk)
    rw [h0] at this; simp at this
  have hnode := node_new (B := B) hne
  have hhost := (hi k _ hsci).host
  have hn0 : 0 < cs.length := by omega
  let cs1 := cs.set k { cs[k] with ibe := { cs[k].ibe with vssPolynomial := p.marshal } }
  let shrs : List (VssShare B) := (p.createShares cs.length).map fun sh => { expoly := p.exponent B, share := sh, mpk := p.eval 0 • B.gen1 }
  have hget : ∀ j, j < cs.length → shrs[j]? = some (vssOf B p j) := by
    intro j hj
    simp only [shrs, Poly.createShares, List.map_map, List.getElem?_map, List.getElem?_range hj]
    rfl
  refine ⟨List.zipWith (giveShare B cs[k].hostname (p.exponent B).marshal) cs1 shrs, ?_, ?_, ?_⟩
  · unfold deal
    simp only [goIndex, hsci, goSet, if_pos hkc, bind, Except.bind, hnode]
    have hv : Node.vssShares _ cs.length = .ok shrs := vssShares_eq hnode cs.length
    simp only [List.length_set, hv, hget 0 hn0]
    rfl
  · simp [cs1, shrs, Poly.createShares, hl]
  · intro j sc hsc
    rw [List.getElem?_zipWith] at hsc
    have hjlen : j < cs.length := by
      by_contra hge
      have : cs1[j]? = none := by simp [cs1]; omega
      rw [this] at hsc; simp at hsc
    have hold := hi j cs[j] (List.getElem?_eq_getElem hjlen)
    rw [hget j hjlen] at hsc
    -- the config before giving the share
    obtain ⟨sc1, hsc1, hrest⟩ : ∃ sc1, cs1[j]? = some sc1 ∧ (sc1.hostname = cs[j].hostname ∧ sc1.threshold = cs[j].threshold ∧
        sc1.secretDKGShare = cs[j].secretDKGShare ∧ sc1.dkgPublicKeys = cs[j].dkgPublicKeys ∧
        sc1.ibe.vssExponentPolynomials = cs[j].ibe.vssExponentPolynomials ∧
        sc1.ibe.nodeToSecretShare = cs[j].ibe.nodeToSecretShare ∧ sc1.ibe.nodeToMasterPublicKey = cs[j].ibe.nodeToMasterPublicKey ∧
        (j < k + 1 → polys[j]?.map Poly.marshal = some sc1.ibe.vssPolynomial)) := by
      by_cases hjk : k = j
      · subst hjk
        refine ⟨{ cs[k] with ibe := { cs[k].ibe with vssPolynomial := p.marshal } }, by simp only [cs1]; rw [List.getElem?_set_self hkc], rfl, rfl, rfl, rfl, rfl, rfl, rfl, ?_⟩
        intro _; rw [hk]; rfl
      · refine ⟨cs[j], by simp only [cs1]; rw [List.getElem?_set_ne hjk, List.getElem?_eq_getElem hjlen], rfl, rfl, rfl, rfl, rfl, rfl, rfl, ?_⟩
        intro hlt; exact hold.poly (by omega)
    rw [hsc1] at hsc
    simp only [Option.some.injEq] at hsc
    obtain ⟨r1, r2, r3, r4, r5, r6, r7, r8⟩ := hrest
    subst hsc
    have hothers : ∀ i h, i < k → addrs[i]? = some h → h ≠ cs[k].hostname := by
      intro i h hik ha he
      rw [he] at ha
      have := nodup_getElem?_inj hg.nodup ha hhost
      omega
    refine ⟨?_, ?_, ?_, ?_, ?_, ?_, ?_, ?_, ?_, ?_, ?_, ?_⟩
    · simpa only [giveShare, r1] using hold.host
    · simpa only [giveShare, r2] using hold.thr
    · simpa only [giveShare, r3] using hold.share
    · simpa only [giveShare, r4] using hold.keys
    · exact r8
    · simp only [giveShare, r5]; exact GoMap.nodup_insert hold.ndp _ _
    · intro h b hb
      simp only [giveShare, r5, GoMap.lookup_insert] at hb
      split at hb
      · next he =>
        injection hb with hb
        exact ⟨k, p, by omega, by rw [he]; exact hhost, hk, hb.symm⟩
      · obtain ⟨i, q, hi1, hi2, hi3, hi4⟩ := hold.dom h b hb
        exact ⟨i, q, by omega, hi2, hi3, hi4⟩
    · intro i q h hik hq ha
      simp only [giveShare, r5, GoMap.lookup_insert]
      by_cases hik' : i = k
      · subst hik'
        rw [hk] at hq; injection hq with hq; subst hq
        rw [hhost] at ha; injection ha with ha; subst ha
        simp
      · rw [if_neg (hothers i h (by omega) ha)]
        exact hold.exps i q h (by omega) hq ha
    · intro i q h hik hq ha
      simp only [giveShare, r6, GoMap.lookup_insert]
      by_cases hik' : i = k
      · subst hik'
        rw [hk] at hq; injection hq with hq; subst hq
        rw [hhost] at ha; injection ha with ha; subst ha
        simp [vssOf]
      · rw [if_neg (hothers i h (by omega) ha)]
        exact hold.shares i q h (by omega) hq ha
    · intro i q h hik hq ha
      simp only [giveShare, r7, GoMap.lookup_insert]
      by_cases hik' : i = k
      · subst hik'
        rw [hk] at hq; injection hq with hq; subst hq
        rw [hhost] at ha; injection ha with ha; subst ha
        simp [vssOf]
      · rw [if_neg (hothers i h (by omega) ha)]
        exact hold.mpks i q h (by omega) hq ha
    · simp only [giveShare, r7]; exact GoMap.nodup_insert hold.ndm _ _
    · intro h b hb
      simp only [giveShare, r7, GoMap.lookup_insert] at hb
      split at hb
      · next he =>
        injection hb with hb
        exact ⟨k, p, by omega, by rw [he]; exact hhost, hk, by rw [← hb]; rfl⟩
      · obtain ⟨i, q, hi1, hi2, hi3, hi4⟩ := hold.domm h b hb
        exact ⟨i, q, by omega, hi2, hi3, hi4⟩

theorem deals_inv {addrs : List Str} {d : Nat} {dkg : Poly} {polys : List Poly} (hg : Good addrs d dkg polys) (rest : List Poly) (k : Nat)
    (hk : rest = polys.drop k) (hkn : k ≤ polys.length) {cs : List ServerConfig} (hl : cs.length = addrs.length)
    (hi : ∀ j sc, cs[j]? = some sc → CfgInv B addrs d dkg polys k j sc) :
    ∃ cs', (rest.zipIdx k).foldlM (fun cs (x : Poly × Nat) => deal B cs x.2 x.1) cs = .ok cs' ∧ cs'.length = addrs.length ∧
      ∀ j sc, cs'[j]? = some sc → CfgInv B addrs d dkg polys polys.length j sc := by
  induction rest generalizing k cs with
  | nil =>
    have : k = polys.length := by
      have := congrArg List.length hk
      simp at this; omega
    subst this
    exact ⟨cs, rfl, hl, hi⟩
  | cons p rest ih =>
    have hlen : k < polys.length := by
      have := congrArg List.length hk
      simp at this; omega
    have hd := List.drop_eq_getElem_cons hlen
    rw [← hk] at hd
    injection hd with hp hr
    obtain ⟨cs1, h1, h2, h3⟩ := deal_inv (B := B) hg (p := p) (k := k) (by rw [hp]; exact List.getElem?_eq_getElem hlen) hl hi
    obtain ⟨cs', h4, h5, h6⟩ := ih (k + 1) hr hlen h2 h3
    refine ⟨cs', ?_, h5, h6⟩
    rw [List.zipIdx_cons, List.foldlM_cons]
    simp only [h1]
    exact h4

theorem createConfigs_spec {addrs : List Str} {d : Nat} {dkg : Poly} {polys : List Poly} (hg : Good addrs d dkg polys) :
    ∃ cs, createConfigs B addrs d dkg polys = .ok cs ∧ cs.length = addrs.length ∧
      ∀ j sc, cs[j]? = some sc → CfgInv B addrs d dkg polys polys.length j sc := by
  have hsmall := hg.small
  have hdle := hg.dle
  have hbase : (addrs.zipIdx).mapM (fun (x : Str × Nat) => (do
      let sh ← goIndex (dkg.createShares addrs.length) x.2
      (.ok (baseConfig x.1 x.2 d sh ((dkg.createShares addrs.length).map fun (s : PolyShare) => (s.computePublicKey B).marshal)) : Go ServerConfig))) =
      .ok (addrs.zipIdx.map fun (x : Str × Nat) => baseConfig x.1 x.2 d (shareOf dkg x.2) ((dkg.createShares addrs.length).map fun (s : PolyShare) => (s.computePublicKey B).marshal)) := by
    refine mapM_ok _ _ _ ?_
    rintro ⟨a, i⟩ hx
    have hi : i < addrs.length := by
      have := List.snd_lt_of_mem_zipIdx hx
      simpa using this
    have : (dkg.createShares addrs.length)[i]? = some (shareOf dkg i) := by
      simp [Poly.createShares, hi, shareOf]
    simp only [goIndex, this]
    rfl
  obtain ⟨cs, h1, h2, h3⟩ := deals_inv (B := B) hg polys 0 rfl (Nat.zero_le _)
    (cs := addrs.zipIdx.map fun x => baseConfig x.1 x.2 d (shareOf dkg x.2) ((dkg.createShares addrs.length).map fun s => (s.computePublicKey B).marshal))
    (by simp) (by
      intro j sc hsc
      rw [List.getElem?_map, List.getElem?_zipIdx] at hsc
      cases ha : addrs[j]? with
      | none => rw [ha] at hsc; simp at hsc
      | some a =>
        rw [ha] at hsc
        simp only [Option.map_some, zero_add, Option.some.injEq] at hsc
        subst hsc
        refine ⟨ha, ?_, rfl, ?_, by omega, by simp [baseConfig, GoMap.NodupKeys], ?_, by omega, by omega, by omega, by simp [baseConfig, GoMap.NodupKeys], ?_⟩
        · simp only [baseConfig]; omega
        · simp [baseConfig, dkgKeys, List.map_map, Function.comp_def]
        · intro h b hb; simp [baseConfig] at hb
        · intro h b hb; simp [baseConfig] at hb)
  refine ⟨cs, ?_, h2, h3⟩
  unfold createConfigs dkgSetup
  simp only
  rw [hbase]
  exact h1

/-! ### Nodes -/

theorem foldlM_receive (c : IBEConfigs) (S : Str → VssShare B) (l : GoMap Str Bytes) (n : Node B)
    (h : ∀ e ∈ l, ∀ n : Node B, receive B c n e = .ok (n.receiveShare e.1 (S e.1))) :
    l.foldlM (receive B c) n = .ok (l.foldl (fun n e => n.receiveShare e.1 (S e.1)) n) :=
  foldlM_ok l (receive B c) (fun n e => n.receiveShare e.1 (S e.1)) n h

theorem foldl_receive_lookup (S : Str → VssShare B) (l : GoMap Str Bytes) (n : Node B) (h : Str)
    (hm : h ∈ l.map Prod.fst ∨ n.shares.lookup h = some (S h)) :
    (l.foldl (fun n e => n.receiveShare e.1 (S e.1)) n).shares.lookup h = some (S h) := by
  induction l generalizing n with
  | nil => simpa using hm
  | cons e l ih =>
    rw [List.foldl_cons]
    refine ih _ ?_
    by_cases he : h = e.1
    · right; simp [Node.receiveShare, he]
    · rcases hm with hm | hm
      · rw [List.map_cons, List.mem_cons] at hm
        rcases hm with hm | hm
        · exact absurd hm he
        · exact Or.inl hm
      · right
        simp only [Node.receiveShare]
        rw [GoMap.lookup_insert_ne _ _ he]; exact hm

theorem foldl_receive_own (S : Str → VssShare B) (l : GoMap Str Bytes) (n : Node B) :
    (l.foldl (fun n e => n.receiveShare e.1 (S e.1)) n).secret = n.secret ∧
    (l.foldl (fun n e => n.receiveShare e.1 (S e.1)) n).pk = n.pk ∧ (l.foldl (fun n e => n.receiveShare e.1 (S e.1)) n).poly = n.poly := by
  induction l generalizing n with
  | nil => exact ⟨rfl, rfl, rfl⟩
  | cons e l ih => rw [List.foldl_cons]; exact ih _

theorem node_spec {addrs : List Str} {d : Nat} {dkg : Poly} {polys : List Poly} (hg : Good addrs d dkg polys) {j : Nat} {sc : ServerConfig}
    (hi : CfgInv B addrs d dkg polys polys.length j sc) (hdd : d + 1 < 2 ^ 32) {pj : Poly} (hpj : polys[j]? = some pj)
    {res : Go (Node B)} (hres : CreateTIBENode B sc res) :
    ∃ n, res = .ok n ∧ n.secret = pj.eval 0 ∧ n.pk = pj.eval 0 • B.gen1 ∧
      ∀ (i : Nat) p h, polys[i]? = some p → addrs[i]? = some h → n.shares.lookup h = some (vssOf B p j) := by
  obtain ⟨order, ho, rfl⟩ := hres
  obtain ⟨hjl, _⟩ := List.getElem?_eq_some_iff.1 hpj
  have hpoly := hi.poly hjl
  rw [hpj] at hpoly
  simp only [Option.map_some, Option.some.injEq] at hpoly
  have hpl := hg.pdeg pj (List.mem_of_getElem? hpj)
  have hne : pj.coefs ≠ [] := by intro h0; rw [h0] at hpl; simp at hpl
  have hjn : j < 2 ^ 32 - 1 := by have := hg.small; have := hg.plen; omega
  -- the share of host h
  let S : Str → VssShare B := fun h => ((addrs.findIdx? (· = h)).bind fun i => polys[i]?.map fun p => vssOf B p j).getD (vssOf B pj j)
  have hS : ∀ (i : Nat) p h, polys[i]? = some p → addrs[i]? = some h → S h = vssOf B p j := by
    intro i p h hp ha
    have hf : addrs.findIdx? (· = h) = some i := by
      rw [List.findIdx?_eq_some_iff_getElem]
      obtain ⟨hil, hie⟩ := List.getElem?_eq_some_iff.1 ha
      refine ⟨hil, by simpa using hie, ?_⟩
      intro i' hi'
      simp only [decide_eq_true_eq]
      intro he
      have := nodup_getElem?_inj hg.nodup (List.getElem?_eq_some_iff.2 ⟨by omega, he⟩) ha
      omega
    simp [S, hf, hp]
  have hrec : ∀ e ∈ order, ∀ n : Node B, receive B sc.ibe n e = .ok (n.receiveShare e.1 (S e.1)) := by
    rintro ⟨h, b⟩ he n
    have hlk := GoMap.mem_lookup hi.ndp (ho.mem_iff.1 he)
    obtain ⟨i, p, hil, ha, hp, hb⟩ := hi.dom h b hlk
    have hpl' := hg.pdeg p (List.mem_of_getElem? hp)
    unfold receive
    simp only
    rw [hb, exponent_roundtrip _ (by simp [Poly.exponent, hpl']; omega)]
    simp only [getBytes, hi.shares i p h hil hp ha, hi.mpks i p h hil hp ha, Option.getD_some]
    rw [share_roundtrip _ (by simp only [shareOf]; omega) (by simp only [shareOf]; omega), B.g1SetBytes_bytes, hS i p h hp ha]
    rfl
  unfold createTIBENode
  rw [← hpoly, poly_roundtrip _ (by omega)]
  simp only [bind, Except.bind, node_new hne]
  rw [foldlM_receive sc.ibe S order _ hrec]
  obtain ⟨o1, o2, _⟩ := foldl_receive_own S order ({ poly := pj, pk := pj.eval 0 • B.gen1, secret := pj.eval 0, shares := [] } : Node B)
  refine ⟨_, rfl, o1, o2, ?_⟩
  intro i p h hp ha
  rw [← hS i p h hp ha]
  refine foldl_receive_lookup S order _ h (Or.inl ?_)
  have hil : i < polys.length := (List.getElem?_eq_some_iff.1 hp).1
  have := GoMap.lookup_mem (hi.exps i p h hil hp ha)
  exact List.mem_map.2 ⟨_, ho.mem_iff.2 this, rfl⟩

theorem holds_of_lookup {n : Node B} {h : Str} {p : Poly} {j : Nat} (hp : p.coefs ≠ []) (hl : n.shares.lookup h = some (vssOf B p j)) :
    HoldsShareOf n h p := by
  have ho := node_new (B := B) hp
  refine ⟨_, j + 1, _, _, ho, vssShares_eq ho (j + 1), ?_, hl⟩
  exact List.mem_map.2 ⟨shareOf p j, List.mem_map.2 ⟨j, by simp, rfl⟩, rfl⟩

theorem publisher_spec {addrs : List Str} {d : Nat} {dkg : Poly} {polys : List Poly} (hg : Good addrs d dkg polys) {j : Nat} {sc : ServerConfig}
    (hi : CfgInv B addrs d dkg polys polys.length j sc) {res : Go (Player B)} (hres : CreateTIBEPublisher B sc res) :
    ∃ pl, res = .ok pl ∧ IsPublisher dkg addrs.length j pl := by
  have hj : j < addrs.length := (List.getElem?_eq_some_iff.1 hi.host).1
  have hsmall := hg.small
  have hkeys : sc.dkgPublicKeys.mapM (PublicKey.setBytes B) = .ok (dkgKeys B dkg addrs.length) := by
    rw [hi.keys, List.mapM_map]
    have := mapM_ok (dkgKeys B dkg addrs.length) (PublicKey.setBytes B ∘ PublicKey.marshal) id (by
      intro k hk
      simp only [dkgKeys, List.mem_map] at hk
      obtain ⟨sh, hsh, rfl⟩ := hk
      obtain ⟨i, hil, rfl⟩ := mem_createShares hsh
      exact publicKey_roundtrip _ (by simp only [PolyShare.computePublicKey]; omega) (by simp only [PolyShare.computePublicKey]; omega))
    simpa [Function.comp_def] using this
  have hshare : PolyShare.setBytes sc.secretDKGShare = .ok (shareOf dkg j) := by
    rw [hi.share, share_roundtrip _ (by simp only [shareOf]; omega) (by simp only [shareOf]; omega)]
  unfold CreateTIBEPublisher at hres
  rw [hkeys] at hres
  simp only [bind, Except.bind, hshare] at hres
  rw [hi.thr] at hres
  have hmem : ∀ k ∈ dkgKeys B dkg addrs.length, ∃ i : Nat, i < addrs.length ∧ k = { index := (i : Int) + 1, key := dkg.eval ((i : Int) + 1) • B.gen1 } := by
    intro k hk
    simp only [dkgKeys, List.mem_map] at hk
    obtain ⟨sh, hsh, rfl⟩ := hk
    obtain ⟨i, hil, rfl⟩ := mem_createShares hsh
    exact ⟨i, hil, rfl⟩
  have hlen : (dkgKeys B dkg addrs.length).length = addrs.length := by simp [dkgKeys, Poly.createShares]
  have hmap : (dkgKeys B dkg addrs.length).map (·.index) = (List.range addrs.length).map fun j : Nat => (j : Int) + 1 := by
    simp [dkgKeys, Poly.createShares, PolyShare.computePublicKey, Function.comp_def]
  have hnodup : ((dkgKeys B dkg addrs.length).map (·.index)).Nodup := by
    rw [hmap]
    refine List.Nodup.map ?_ List.nodup_range
    intro a b hab; simp only at hab; omega
  obtain ⟨pl, h1, _⟩ := newPublisher_correct (d + 1) (shareOf dkg j) (dkgKeys B dkg addrs.length) (by rw [hlen]; exact hg.dle)
    (by rw [List.map_take]; exact hnodup.sublist (List.take_sublist _ _))
    (fun k hk => by
      obtain ⟨i, hil, rfl⟩ := hmem k (List.mem_of_mem_take hk)
      simp only [IsInt]; omega)
    dkg hg.dkg.le (fun k hk => by obtain ⟨i, hil, rfl⟩ := hmem k (List.mem_of_mem_take hk); rfl)
    ⟨by simp [shareOf], by rw [hlen]; simp only [shareOf]; omega⟩ res hres
  refine ⟨pl, h1, hj, ?_⟩
  rw [← h1, hg.dkg]
  exact hres

end Resmix.Config
