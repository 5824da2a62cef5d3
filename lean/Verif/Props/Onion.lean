import Verif.Proofs.Onion
import Verif.Props.Config
import Verif.Props.Topology
set_option autoImplicit false
/-
C17, C18, C19, C22: onions (messages.go).
-/
namespace Resmix.Onion
open Tibe Config

/-! ### C17, C18 -/

/-- C17: whatever cipher it carries, an onion built for position `pos` of layer `layer` is routed by ExtractMixConfig to exactly that
mix. -/
theorem C17_trailer_roundtrip (B : Bls) (c : Cipher B) (t : Topology) (layer pos : Nat) (hl : layer < 2 ^ 32) (hp : pos < 2 ^ 32)
    (m : LogicalMix) (hm : t.mixAt layer pos = some m) : extractMixConfig (onionBytes c layer pos) t = .ok m :=
  extract_iff.2 ⟨_, layer, pos, hl, hp, rfl, hm⟩

/-- C17: every onion returned by onionWrap is routed to the mix it was wrapped for. -/
theorem C17_wrap_routes (B : Bls) (S : Sha3) (G : Generator B) (rnd : Fr × Bytes) (round layer pos : Nat) (hl : layer < 2 ^ 32)
    (hp : pos < 2 ^ 32) (msg : Bytes) (mpk : B.G1) (o : Bytes) (h : onionWrap S G rnd round layer pos msg mpk = .ok o) :
    ∃ m, G.topo.mixAt layer pos = some m ∧ extractMixConfig o G.topo = .ok m := by
  unfold onionWrap at h
  cases hlay : G.topo.layers[layer]? with
  | none => simp [goIndex, hlay, bind, Except.bind] at h
  | some lay =>
    cases hmix : lay[pos]? with
    | none => simp [goIndex, hlay, hmix, bind, Except.bind] at h
    | some mix =>
      obtain ⟨ct, _, hc⟩ := encrypt_ok mpk rnd.1 rnd.2 (computeId S mix.hostname round) msg
      simp only [goIndex, hlay, hmix, bind, Except.bind, hc] at h
      injection h with h
      have hat : G.topo.mixAt layer pos = some mix := by simp [Topology.mixAt, hlay, hmix]
      refine ⟨mix, hat, ?_⟩
      rw [← h]
      exact C17_trailer_roundtrip B _ _ _ _ hl hp mix hat

example : ∃ (t : Topology) (m : LogicalMix), Topology.createCascade Topology.exampleHosts 2 = .ok t ∧ t.mixAt 1 2 = some m ∧ m.hostname = [97] :=
  ⟨_, _, rfl, rfl, by decide⟩

/-- C18: ExtractCipher returns the cipher that was serialised, provided its MAC has the length of an HMAC-SHA256 value (as every
cipher made by Encrypt has), and Size() is the number of bytes written. -/
theorem C18_cipher_roundtrip (B : Bls) (c : Cipher B) (hm : c.mac.length = 32) (layer pos : Nat) :
    extractCipher B (onionBytes c layer pos) = .ok c ∧ c.toBuffer.length = c.size := by
  have hsz : c.toBuffer.length = c.size := by
    simp [Cipher.toBuffer, Cipher.size, B.g1Bytes_len, Nat.add_assoc]
  refine ⟨?_, hsz⟩
  have hlen : (onionBytes c layer pos).length = c.toBuffer.length + 8 := by simp [onionBytes]
  unfold extractCipher
  rw [if_neg (by omega)]
  have htake : (onionBytes c layer pos).take ((onionBytes c layer pos).length - 8) = c.toBuffer := by
    rw [hlen, onionBytes, List.append_assoc, Nat.add_sub_cancel, List.take_left]
  rw [htake]
  unfold Cipher.setBytes
  have hg := B.g1Bytes_len c.gr
  have hbuf : c.toBuffer.length = g1Size + macSize + c.encrypted.length := by rw [hsz, Cipher.size, hm]; rfl
  have e1 : goSlice c.toBuffer 0 g1Size = .ok (B.g1Bytes c.gr) := by
    unfold goSlice
    rw [if_pos (by omega), Cipher.toBuffer, List.append_assoc, ← hg, List.take_left, List.drop_zero]
  have e2 : goSlice c.toBuffer g1Size (g1Size + macSize) = .ok c.mac := by
    unfold goSlice
    rw [if_pos (by omega), Cipher.toBuffer]
    have : g1Size + macSize = (B.g1Bytes c.gr ++ c.mac).length := by rw [List.length_append, hg, hm]; rfl
    rw [this, List.take_left, ← hg, List.drop_left]
  have e3 : goSlice c.toBuffer (g1Size + macSize) c.toBuffer.length = .ok c.encrypted := by
    unfold goSlice
    rw [if_pos (by omega), List.take_of_length_le le_rfl, Cipher.toBuffer]
    have : g1Size + macSize = (B.g1Bytes c.gr ++ c.mac).length := by rw [List.length_append, hg, hm]; rfl
    rw [this, List.drop_left]
  simp only [e1, e2, e3, bind, Except.bind, B.g1SetBytes_bytes]

/-- Every cipher made by Encrypt satisfies the hypothesis of C18. -/
theorem C18_encrypt_mac_length (B : Bls) (mpk : B.G1) (r : Fr) (iv id msg : Bytes) (c : Cipher B) (h : encrypt B mpk r iv id msg = .ok c) :
    c.mac.length = 32 := by
  obtain ⟨ct, _, hc⟩ := encrypt_ok mpk r iv id msg
  rw [hc] at h
  injection h with h
  rw [← h]
  exact B.mac_len _ _

example : ∃ c : Cipher Bls.toy, encrypt Bls.toy (5 : Fr) 7 (List.replicate 16 1) [1] [2, 3] = .ok c := ⟨_, rfl⟩

/-! ### C19 -/

/-- NewMessageGenerator on created configurations succeeds and knows, for every server, the master public key of that server's node. -/
theorem generator_spec {B : Bls} {addrs : List Str} {d : Nat} {dkg : Poly} {polys : List Poly} {cs : List ServerConfig}
    (h : Created B addrs d dkg polys cs) (t : Topology) (res : Go (Generator B)) (hres : NewGenerator B t cs res) :
    ∃ G, res = .ok G ∧ G.topo = t ∧ ∀ (i : Nat) p a, polys[i]? = some p → addrs[i]? = some a → G.mpks.lookup a = some (p.eval 0 • B.gen1) := by
  obtain ⟨hlen, hinv⟩ := h.inv
  cases cs with
  | nil => have := h.degree_below; simp at hlen; omega
  | cons c cs =>
    have hc := hinv 0 c rfl
    obtain ⟨order, ho, rfl⟩ := hres
    have hnd := GoMap.nodup_perm ho.symm hc.ndm
    have key : ∀ (l : GoMap Str Bytes) (acc : GoMap Str B.G1), (∀ e ∈ l, ∃ x : B.G1, e.2 = B.g1Bytes x) → (l.map Prod.fst).Nodup →
        ∃ mp : GoMap Str B.G1, l.foldlM (addMpk B) acc = .ok mp ∧
          (∀ a x, (a, B.g1Bytes x) ∈ l → mp.lookup a = some x) ∧ (∀ a, a ∉ l.map Prod.fst → mp.lookup a = acc.lookup a) := by
      intro l
      induction l with
      | nil => intro acc _ _; exact ⟨acc, rfl, (fun a x hx => by cases hx), fun a _ => rfl⟩
      | cons e l ih =>
        intro acc hb hn
        obtain ⟨x, hx⟩ := hb e List.mem_cons_self
        rw [List.map_cons, List.nodup_cons] at hn
        obtain ⟨mp, h1, h2, h3⟩ := ih (acc.insert e.1 x) (fun e' he' => hb e' (List.mem_cons_of_mem _ he')) hn.2
        refine ⟨mp, ?_, ?_, ?_⟩
        · rw [List.foldlM_cons]
          have : addMpk B acc e = .ok (acc.insert e.1 x) := by unfold addMpk; rw [hx, B.g1SetBytes_bytes]
          rw [this]
          exact h1
        · intro a y hy
          rcases List.mem_cons.1 hy with heq | hy
          · subst heq
            simp only at hx hn
            have hxy : y = x := by
              have h1 := B.g1SetBytes_bytes y
              rw [hx, B.g1SetBytes_bytes] at h1
              injection h1 with h1; exact h1.symm
            rw [hxy, h3 _ hn.1, GoMap.lookup_insert_self]
          · exact h2 a y hy
        · intro a ha
          rw [List.map_cons, List.mem_cons, not_or] at ha
          rw [h3 a ha.2, GoMap.lookup_insert_ne _ _ ha.1]
    obtain ⟨mp, h1, h2, _⟩ := key order [] (by
      rintro ⟨a, b⟩ he
      obtain ⟨i, p, _, _, _, hb⟩ := hc.domm a b (GoMap.mem_lookup hc.ndm (ho.mem_iff.1 he))
      exact ⟨_, hb⟩) hnd
    refine ⟨{ topo := t, mpks := mp }, ?_, rfl, ?_⟩
    · unfold newGenerator
      rw [h1]; rfl
    · intro i p a hp ha
      have hil := (List.getElem?_eq_some_iff.1 hp).1
      exact h2 a _ (ho.mem_iff.2 (GoMap.lookup_mem (hc.mpks i p a hil hp ha)))

/-- Wrapping `i` more layers around an onion that peels from layer `i` on gives one that peels from layer 0 on. -/
theorem wrap_peels {B : Bls} (S : Sha3) (G : Generator B) (round c L n : Nat) (msg : Bytes) (open_ : Str → Bytes → Go Bytes)
    (sec : Str → Fr) (hc : c < n) (hn32 : n ≤ 2 ^ 32) (hL : L ≤ 2 ^ 32)
    (hat : ∀ i, i < L → ∃ m, G.topo.mixAt i c = some m ∧ G.mpks.lookup m.hostname = some (sec m.hostname • B.gen1))
    (hopen : ∀ h o, open_ h o = peel (sec h • B.hashG2 (computeId S h round)) o)
    (rnd : Nat → Fr × Bytes) (hrnd : ∀ i, (rnd i).2.length = 16) (i : Nat) (hi : i ≤ L) (o : Bytes)
    (ho : Peels G.topo open_ L c msg i o) : ∃ o', wrapLayers S G round c rnd i o = .ok o' ∧ Peels G.topo open_ L c msg 0 o' := by
  induction i generalizing o with
  | zero => exact ⟨o, rfl, ho⟩
  | succ i ih =>
    obtain ⟨m, hm, hk⟩ := hat i (by omega)
    obtain ⟨lay, hlay, hmix⟩ : ∃ lay, G.topo.layers[i]? = some lay ∧ lay[c]? = some m := by
      unfold Topology.mixAt at hm
      cases hl : G.topo.layers[i]? with
      | none => rw [hl] at hm; cases hm
      | some lay => rw [hl] at hm; exact ⟨lay, rfl, hm⟩
    have hi32 : i % 2 ^ 32 = i := Nat.mod_eq_of_lt (by omega)
    have hc32 : c % 2 ^ 32 = c := Nat.mod_eq_of_lt (by omega)
    obtain ⟨ci, hce, hmac, hd⟩ := decrypt_encrypt (B := B) (sec m.hostname) (rnd i).1 (rnd i).2 (computeId S m.hostname round) o (hrnd i)
    have hmac32 := C18_encrypt_mac_length B _ _ _ _ _ ci hce
    have hwrap : onionWrap S G (rnd i) round i c o (sec m.hostname • B.gen1) = .ok (onionBytes ci i c) := by
      unfold onionWrap
      simp only [goIndex, hlay, hmix, bind, Except.bind, hce]
    obtain ⟨o', h1, h2⟩ := ih (by omega) (onionBytes ci i c) (by
      refine Peels.layer (m := m) (by omega) hm (extract_iff.1 (C17_trailer_roundtrip B ci _ _ _ (by omega) (by omega) m hm)) ?_ ho
      rw [hopen]
      unfold peel
      rw [(C18_cipher_roundtrip B ci hmac32 i c).1]
      simp only [bind, Except.bind]
      rw [hd])
    refine ⟨o', ?_, h2⟩
    unfold wrapLayers
    simp only [goIndex, hlay, hmix, bind, Except.bind, hk, hi32, hc32, hwrap]
    exact h1

/-- C19: on a system created for distinct addresses with L layers, NewMessageGenerator succeeds, and for every message, every round, every
choice of chains (see C20 for the choice made) and all randomness, the k-th onion addresses the mix at the k-th chain's position of layer
0, 1, ..., L-1 in turn while it is opened by the hosts of these mixes with their round keys, and finally yields the message. -/
theorem C19_peel_yields_message (B : Bls) (S : Sha3) (addrs : List Str) (d : Nat) (dkg : Poly) (polys : List Poly) (cs : List ServerConfig)
    (h : Created B addrs d dkg polys cs) (L : Nat) (hL : L ≤ 2 ^ 32) (t : Topology) (ht : Topology.createCascade addrs L = .ok t)
    (res : Go (Generator B)) (hres : NewGenerator B t cs res) (node : Str → Node B)
    (hnode : ∀ sc ∈ cs, CreateTIBENode B sc (.ok (node sc.hostname))) (msg : Bytes) (round : Nat) (chains : List Nat)
    (hch : ∀ c ∈ chains, c < addrs.length) (rnd : Nat → Nat → Fr × Bytes) (hrnd : ∀ k i, (rnd k i).2.length = 16) :
    ∃ G onions, res = .ok G ∧ wrapChains S G msg round chains rnd = .ok onions ∧
      List.Forall₂ (fun c o => Peels t (fun host o => peel ((node host).decrypter (computeId S host round)) o) L c msg 0 o) chains onions := by
  obtain ⟨G, hG, htopo, hmpk⟩ := generator_spec h t res hres
  have hc := Topology.closed_of_create ht
  have hlayers : G.topo.layers.length = L := by rw [htopo, hc.layers]; simp
  obtain ⟨hlen, hinv⟩ := h.inv
  have hn32 := h.servers_below
  have hat : ∀ c, c < addrs.length → ∀ i, i < L → ∃ m, G.topo.mixAt i c = some m ∧ G.mpks.lookup m.hostname = some ((node m.hostname).secret • B.gen1) := by
    intro c hcn i hi
    have hm := hc.mixAt_eq i c hi hcn
    rw [htopo]
    refine ⟨_, hm, ?_⟩
    have hmod : (c + i) % addrs.length < addrs.length := Nat.mod_lt _ (by omega)
    have hhost : addrs[(c + i) % addrs.length]? = some (Topology.closedMix addrs L i ⟨c, hcn⟩).hostname := by
      simp [Topology.closedMix, Topology.newMix, hmod]
    have hsc : cs[(c + i) % addrs.length]? = some cs[(c + i) % addrs.length] := List.getElem?_eq_getElem (by omega)
    obtain ⟨p, n, hp, _, hn, hh, hsec, _⟩ := h.node hsc (hnode _ (List.getElem_mem (by omega)))
    injection hn with hn
    rw [hh] at hhost
    injection hhost with hhost
    rw [← hhost, hmpk _ p _ hp hh, hn, hsec]
  have key : ∀ (chs : List Nat) (k : Nat), (∀ c ∈ chs, c < addrs.length) →
      ∃ onions, (chs.zipIdx k).mapM (fun (x : Nat × Nat) => wrapLayers S G round x.1 (rnd x.2) G.topo.layers.length msg) = .ok onions ∧
        List.Forall₂ (fun c o => Peels t (fun host o => peel ((node host).decrypter (computeId S host round)) o) L c msg 0 o) chs onions := by
    intro chs
    induction chs with
    | nil => intro k _; exact ⟨[], rfl, List.Forall₂.nil⟩
    | cons c chs ih =>
      intro k hcs
      obtain ⟨os, h1, h2⟩ := ih (k + 1) (fun c' hc' => hcs c' (List.mem_cons_of_mem _ hc'))
      obtain ⟨o, h3, h4⟩ := wrap_peels (B := B) S G round c L addrs.length msg
        (fun host o => peel ((node host).decrypter (computeId S host round)) o) (fun hst => (node hst).secret) (hcs c List.mem_cons_self)
        (by omega) hL (hat c (hcs c List.mem_cons_self)) (fun _ _ => rfl) (rnd k) (hrnd k) L le_rfl msg Peels.done
      rw [htopo] at h4
      refine ⟨o :: os, ?_, List.Forall₂.cons h4 h2⟩
      rw [List.zipIdx_cons, List.mapM_cons]
      simp only [hlayers, h3, bind, Except.bind]
      rw [hlayers] at h1
      rw [h1]; rfl
  obtain ⟨onions, h1, h2⟩ := key chains 0 hch
  exact ⟨G, onions, hG, h1, h2⟩

/-- The hypotheses are met by a system of three servers, two layers, and chains 2 and 0. -/
example : ∃ (cs : List ServerConfig) (t : Topology) (G : Generator Bls.toy) (node : Str → Node Bls.toy),
    Created Bls.toy Topology.exampleHosts 1 ⟨[5, 3]⟩ [⟨[7, 1]⟩, ⟨[8, 2]⟩, ⟨[9, 4]⟩] cs ∧
    Topology.createCascade Topology.exampleHosts 2 = .ok t ∧ NewGenerator Bls.toy t cs (.ok G) ∧
    (∀ sc ∈ cs, CreateTIBENode Bls.toy sc (.ok (node sc.hostname))) ∧ ∀ c ∈ [2, 0], c < Topology.exampleHosts.length := by
  obtain ⟨cs, hc, hh, hn, _⟩ := C39_all_built Bls.toy Topology.exampleHosts 1 ⟨[5, 3]⟩ [⟨[7, 1]⟩, ⟨[8, 2]⟩, ⟨[9, 4]⟩]
    (by decide) (by decide) (by decide) (by decide) (by simp)
  have hnodes : ∀ sc ∈ cs, ∃ n, CreateTIBENode Bls.toy sc (.ok n) := by
    intro sc hsc
    have hx : CreateTIBENode Bls.toy sc (createTIBENode Bls.toy sc sc.ibe.vssExponentPolynomials) := ⟨_, List.Perm.refl _, rfl⟩
    obtain ⟨n, hne⟩ := hn sc hsc _ hx
    exact ⟨n, hne ▸ hx⟩
  obtain ⟨t, ht, _⟩ := Topology.createCascade_eq Topology.exampleHosts 2
  have hgen : ∃ r, NewGenerator Bls.toy t cs r := by
    cases cs with
    | nil => exact ⟨_, rfl⟩
    | cons c cs => exact ⟨_, _, List.Perm.refl _, rfl⟩
  obtain ⟨r, hr⟩ := hgen
  obtain ⟨G, hG, _⟩ := generator_spec hc t r hr
  -- choose the node of the (unique) server of a given name
  have hnd : (cs.map fun sc => sc.hostname).Nodup := by rw [hh]; decide
  have hex : ∀ hst : Str, ∃ n : Node Bls.toy, ∀ sc ∈ cs, sc.hostname = hst → CreateTIBENode Bls.toy sc (.ok n) := by
    intro hst
    by_cases hx : ∃ sc ∈ cs, sc.hostname = hst
    · obtain ⟨sc, hsc, he⟩ := hx
      obtain ⟨n, hn⟩ := hnodes sc hsc
      refine ⟨n, ?_⟩
      intro sc' hsc' he'
      have := List.inj_on_of_nodup_map hnd hsc' hsc (he'.trans he.symm)
      rw [this]; exact hn
    · obtain ⟨n, _⟩ : ∃ n : Node Bls.toy, True := ⟨{ poly := ⟨[]⟩, pk := (0 : Fr), secret := 0, shares := [] }, trivial⟩
      exact ⟨n, fun sc hsc he => absurd ⟨sc, hsc, he⟩ hx⟩
  choose node hnode using hex
  exact ⟨cs, t, G, node, hc, ht, hG ▸ hr, fun sc hsc => hnode _ sc hsc rfl, by decide⟩

/-! ### C22 -/

theorem group_theorem (key : LogicalMix → Str) (onions : List Bytes) (t : Topology) (first : List LogicalMix)
    (hf : t.layers[0]? = some first) (hne : first ≠ []) (h : ∀ o ∈ onions, ∃ m, Addresses t o m) :
    ∃ g, groupBy key onions t = .ok g ∧ GoMap.NodupKeys g ∧
      (∀ k os, (k, os) ∈ g ↔ os ≠ [] ∧ os = onionsFor t key onions k) ∧ (g.flatMap Prod.snd).Perm onions ∧
      (g.map fun e => e.2.length).sum = onions.length := by
  obtain ⟨g, hg, hi⟩ := groupBy_spec key onions t first hf hne h
  refine ⟨g, hg, hi.nodup, ?_, hi.perm, ?_⟩
  · intro k os
    rw [← GoMap.lookup_iff_mem hi.nodup, hi.look k, filter_keyOf key t onions h k]
    constructor
    · intro hx
      split at hx
      · cases hx
      · next hne => injection hx with hx; rw [← hx]; exact ⟨hne, rfl⟩
    · rintro ⟨h1, rfl⟩
      rw [if_neg h1]
  · have := hi.perm.length_eq
    rw [List.length_flatMap] at this
    exact this

/-- C22: for any list of onions that address mixes of the topology, GroupOnionsByMixName returns a map in which the group of name `k` is
exactly the list of onions addressing a mix named `k`, in their original order, names without onions are absent, and the groups together
contain every onion exactly once. -/
theorem C22_by_mix_name (onions : List Bytes) (t : Topology) (first : List LogicalMix) (hf : t.layers[0]? = some first)
    (hne : first ≠ []) (h : ∀ o ∈ onions, ∃ m, Addresses t o m) :
    ∃ g, groupOnionsByMixName onions t = .ok g ∧ GoMap.NodupKeys g ∧
      (∀ k os, (k, os) ∈ g ↔ os ≠ [] ∧ os = onionsFor t (fun m => m.name) onions k) ∧ (g.flatMap Prod.snd).Perm onions ∧
      (g.map fun e => e.2.length).sum = onions.length :=
  group_theorem _ onions t first hf hne h

/-- C22: the same for GroupOnionsByHostname and the hosts of the addressed mixes. -/
theorem C22_by_hostname (onions : List Bytes) (t : Topology) (first : List LogicalMix) (hf : t.layers[0]? = some first)
    (hne : first ≠ []) (h : ∀ o ∈ onions, ∃ m, Addresses t o m) :
    ∃ g, groupOnionsByHostname onions t = .ok g ∧ GoMap.NodupKeys g ∧
      (∀ k os, (k, os) ∈ g ↔ os ≠ [] ∧ os = onionsFor t (fun m => m.hostname) onions k) ∧ (g.flatMap Prod.snd).Perm onions ∧
      (g.map fun e => e.2.length).sum = onions.length :=
  group_theorem _ onions t first hf hne h

/-- Three onions for two mixes of a 3-server, 2-layer cascade. -/
example : ∃ (t : Topology) (first : List LogicalMix), Topology.createCascade Topology.exampleHosts 2 = .ok t ∧ t.layers[0]? = some first ∧
    first ≠ [] ∧ ∀ o ∈ [[7] ++ be32 1 ++ be32 2, be32 0 ++ be32 1, [8, 9] ++ be32 1 ++ be32 2], ∃ m, Addresses t o m := by
  refine ⟨_, _, rfl, rfl, by decide, ?_⟩
  intro o ho
  simp only [List.mem_cons, List.not_mem_nil, or_false] at ho
  rcases ho with rfl | rfl | rfl
  · exact ⟨_, _, 1, 2, by decide, by decide, rfl, rfl⟩
  · exact ⟨_, [], 0, 1, by decide, by decide, rfl, rfl⟩
  · exact ⟨_, _, 1, 2, by decide, by decide, rfl, rfl⟩

end Resmix.Onion
