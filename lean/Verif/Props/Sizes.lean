import Verif.Props.SystemCreated
set_option autoImplicit false
/-
C136: what the sizes of onions tell.
-/
namespace Resmix.Onion
open Tibe

theorem cfbDecrypt_length (aes : Bytes → Bytes → Bytes) (hl : ∀ k b, (aes k b).length = blockSize) (k : Bytes) (f : Nat) (prev p : Bytes)
    (hf : p.length ≤ f) : (cfbDecrypt aes k f prev p).length = p.length := by
  induction f generalizing prev p with
  | zero => simp [cfbDecrypt, List.length_eq_zero_iff.1 (Nat.le_zero.1 hf)]
  | succ f ih =>
    unfold cfbDecrypt
    split
    · next h => simp [h]
    · next h =>
      have hp : 0 < p.length := List.length_pos_iff.2 h
      simp only [List.length_append, xor_length, hl, List.length_take]
      rw [ih _ _ (by simp [blockSize]; omega)]
      simp only [blockSize, List.length_drop]
      omega

theorem goSlice_length {a b : Bytes} {lo hi : Nat} (h : goSlice a lo hi = .ok b) : lo ≤ hi ∧ hi ≤ a.length ∧ b.length = hi - lo := by
  unfold goSlice at h
  split at h
  · next hc => injection h with h; subst h; exact ⟨hc.1, hc.2, by rw [List.length_drop, List.length_take]; omega⟩
  · cases h

theorem setBytes_size {B : Bls} {b : Bytes} {c : Cipher B} (h : Cipher.setBytes B b = .ok c) : c.encrypted.length + 128 = b.length := by
  unfold Cipher.setBytes at h
  cases h1 : goSlice b 0 g1Size with
  | error e => rw [h1] at h; cases h
  | ok x =>
    rw [h1] at h
    change (B.g1SetBytes x >>= _) = _ at h
    cases h2 : B.g1SetBytes x with
    | error e => rw [h2] at h; cases h
    | ok g =>
      rw [h2] at h
      change (goSlice b g1Size (g1Size + macSize) >>= _) = _ at h
      cases h3 : goSlice b g1Size (g1Size + macSize) with
      | error e => rw [h3] at h; cases h
      | ok m =>
        rw [h3] at h
        change (goSlice b (g1Size + macSize) b.length >>= _) = _ at h
        cases h4 : goSlice b (g1Size + macSize) b.length with
        | error e => rw [h4] at h; cases h
        | ok e =>
          rw [h4] at h
          injection h with h; subst h
          have := goSlice_length h4
          simp only [g1Size, macSize] at this ⊢
          omega

/-- C136. Whatever an onion is and whoever opens it: what comes out is 152 bytes shorter than what went in. -/
theorem C136_peel_size {B : Bls} (sk : B.G2) (o o' : Bytes) (h : peel sk o = .ok o') : o.length = o'.length + 152 := by
  unfold peel at h
  cases hc : extractCipher B o with
  | error e => rw [hc] at h; cases h
  | ok c =>
    rw [hc] at h
    change (decrypt sk c).1 = .ok o' at h
    unfold extractCipher at hc
    split at hc
    · cases hc
    · next hlen =>
      have henc : c.encrypted.length + 128 = o.length - 8 := by
        cases hs : Cipher.setBytes B (o.take (o.length - 8)) with
        | error e => rw [hs] at hc; cases hc
        | ok c' =>
          rw [hs] at hc
          injection hc with hc; subst hc
          have := setBytes_size hs
          rw [List.length_take] at this
          omega
      unfold decrypt at h
      dsimp only at h
      split at h
      · unfold aesDecrypt at h
        split at h
        · split at h
          · cases h
          · next hb =>
            injection h with h
            subst h
            rw [cfbDecrypt_length _ B.aes_len _ _ _ _ (le_refl _), List.length_drop]
            simp only [blockSize] at hb ⊢
            omega
        · cases h
      · cases h

theorem mapM_length {α β : Type} (f : α → Go β) (l : List α) {r : List β} (h : l.mapM f = .ok r) : r.length = l.length := by
  induction l generalizing r with
  | nil => rw [List.mapM_nil] at h; injection h with h; subst h; rfl
  | cons a l ih =>
    rw [List.mapM_cons] at h
    cases h1 : f a with
    | error e => rw [h1] at h; cases h
    | ok b =>
      rw [h1] at h
      change (l.mapM f >>= _) = _ at h
      cases h2 : l.mapM f with
      | error e => rw [h2] at h; cases h
      | ok bs =>
        rw [h2] at h
        injection h with h; subst h
        simp [ih h2]

theorem wrap_length {B : Bls} {S : Sha3} {G : Generator B} {msg : Bytes} {round : Nat} {chains : List Nat} {rnd : Nat → Nat → Fr × Bytes} {onions : List Bytes}
    (h : wrapChains S G msg round chains rnd = .ok onions) : onions.length = chains.length := by
  have := mapM_length _ _ h
  simpa using this

/-- The size of an onion that opens along a chain is that of its message and of the layers before it. -/
theorem peels_size {t : Topology} {open_ : Str → Bytes → Go Bytes} {L ch : Nat} {msg : Bytes} (hop : ∀ h o o', open_ h o = .ok o' → o.length = o'.length + 152)
    {l : Nat} {o : Bytes} (h : Peels t open_ L ch msg l o) : l ≤ L ∧ o.length = msg.length + 152 * (L - l) := by
  induction h with
  | done => exact ⟨le_refl _, by omega⟩
  | layer h1 h2 h3 h4 h5 ih =>
    have := hop _ _ _ h4
    refine ⟨by omega, ?_⟩
    rw [this, ih.2]
    omega

end Resmix.Onion

namespace Resmix.System
open Resmix.Mixer (Messages MixOutput onionsFor)
open Resmix.Onion
open Resmix.Tibe Resmix.Config

/-- C136. In every execution of the system (other rounds may run, requests may be lost, delayed and reordered, servers crash) in which the clients of round `r` behave and their
plaintexts have the same size `n`: all onions of a request on the way to a mix of layer `l` have the same size, namely `n` plus 152 bytes for each of the `L - l` layers left,
whichever mix sent them and whatever they contain; so have the onions clients send; and what the last mixes return are messages of size `n`. The size of what one sees on the
network tells the layer only. -/
theorem C136_same_size {B : Bls} {c : Config} {servers : List Str} {L : Nat} (hL : 0 < L) (ht : Topology.createCascade servers L = .ok c.topo)
    {r : Nat} (hr : r < 2 ^ 32) {subs : List Submission} (hkeys : ∀ host, ∃ sk : B.G2, (c.env host r).decrypt = peel sk)
    (hop : ∀ x ∈ subs, Peels c.topo (fun host o => (c.env host r).decrypt o) L x.chain x.msg 0 x.onion)
    {n : Nat} (hn : ∀ x ∈ subs, x.msg.length = n)
    {conn : Str → Bool} {evs : List Event} {s : State} (hrun : Run c (init conn) evs s) (hcl : Clients c.topo subs r evs) :
    (∀ l ch mix, c.topo.mixAt l ch = some mix → ∀ rq ∈ s.net, rq.round = r → ∀ M ∈ rq.messages, M.logicalReceiver = mix.name → ∀ o ∈ M.messages,
      o.length = n + 152 * (L - l)) ∧
    (∀ ch first, c.topo.mixAt 0 ch = some first → ∀ o ∈ clientOnions evs r first.name, o.length = n + 152 * L) ∧
    ∀ ch last out, c.topo.mixAt (L - 1) ch = some last → Returns s last.hostname r last.name out → ∀ o ∈ out, o.length = n := by
  have hsize : ∀ h o o', (c.env h r).decrypt o = .ok o' → o.length = o'.length + 152 := by
    intro h o o' hd
    obtain ⟨sk, hk⟩ := hkeys h
    rw [hk] at hd
    exact C136_peel_size sk o o' hd
  have hX : ∀ ch l, l ≤ L → ∀ o ∈ X c r subs ch l, o.length = n + 152 * (L - l) := by
    intro ch l hl o ho
    have hp := X_peels hop ch l hl
    obtain ⟨i, hi⟩ := List.getElem?_of_mem ho
    obtain ⟨hlt1, hlt2⟩ := List.getElem?_eq_some_iff.1 hi
    have hlt' : i < (onChain subs ch).length := by rw [← hp.length_eq]; exact hlt1
    have hx := List.Forall₂.get hp hlt1 hlt'
    simp only [List.get_eq_getElem, hlt2] at hx
    have hmem : (onChain subs ch)[i] ∈ subs := (List.mem_filter.1 (List.getElem_mem hlt')).1
    rw [(peels_size (fun h o o' => hsize h o o') hx).2, hn _ hmem]
  have hclosed := Topology.closed_of_create ht
  obtain ⟨hsi, _, A, ⟨v, _, _⟩⟩ := rinv_run hL ht hop hr hrun hcl
  refine ⟨?_, ?_, ?_⟩
  · intro l ch mix hm rq hrq hrr M hM hrec o ho
    refine hX ch l (le_of_lt (hclosed.mixAt_some hm).1) o ?_
    have hcnt : 0 < cnt mix.name o (netB r s.net) := by
      unfold cnt
      rw [List.count_pos_iff]
      unfold Mixer.onionsFor
      refine List.mem_flatMap.2 ⟨M, ?_, ?_⟩
      · unfold netB
        rw [List.mem_filter]
        exact ⟨List.mem_flatMap.2 ⟨rq, hrq, by rw [if_pos hrr]; exact hM⟩, by simpa using hrec⟩
      · exact ho
    have h1 := v.acct _ _ _ hm o
    have h2 := v.bnd l ch o
    exact List.count_pos_iff.1 (by omega)
  · intro ch first hf o ho
    have := hX ch 0 (Nat.zero_le _) o ?_
    · simpa using this
    · exact (hcl.onions ch first hf).subset ho
  · intro ch last out hl hret o ho
    have := ((C64_end_to_end hL ht hr hop hrun hcl).1 ch last out hl hret).subset ho
    obtain ⟨x, hx, rfl⟩ := List.mem_map.1 this
    exact hn x (List.mem_filter.1 hx).1

/-- C136 for a created system whose clients generate their messages, all of 258 bytes (messages.go:17, 210), with NewMessageGenerator / generateOnion. -/
theorem C136_created_system (B : Bls) (S : Sha3) (addrs : List Str) (d : Nat) (dkg : Poly) (polys : List Poly) (cs : List ServerConfig)
    (hcr : Created B addrs d dkg polys cs) (L : Nat) (hL0 : 0 < L) (hL : L ≤ 2 ^ 32) (hn : 1 ≤ addrs.length) (hb : addrs.length ≤ 2 ^ 50)
    (c : Config) (ht : Topology.createCascade addrs L = .ok c.topo) (G : Generator B) (hG : NewGenerator B c.topo cs (.ok G))
    (node : Str → Node B) (hnode : ∀ sc ∈ cs, CreateTIBENode B sc (.ok (node sc.hostname))) (r : Nat) (hr : r < 2 ^ 32)
    (henv : ∀ host, (c.env host r).decrypt = peel ((node host).decrypter (computeId S host r)))
    (ms : List ClientMessage) (hgen : Generated S G addrs.length r ms) (hsize : ∀ m ∈ ms, m.msg.length = 258) {conn : Str → Bool} {evs : List Event} {s : State}
    (hrun : Run c (init conn) evs s) (hcl : Clients c.topo (submissions ms) r evs) :
    (∀ m ∈ ms, ∀ o ∈ m.onions, o.length = 258 + 152 * L) ∧
    ∀ l ch mix, c.topo.mixAt l ch = some mix → ∀ rq ∈ s.net, rq.round = r → ∀ M ∈ rq.messages, M.logicalReceiver = mix.name → ∀ o ∈ M.messages,
      o.length = 258 + 152 * (L - l) := by
  obtain ⟨hop, hmsgs⟩ := generated_opens B S addrs d dkg polys cs hcr L hL hn hb c ht G hG node hnode r henv ms hgen
  have hsub : ∀ x ∈ submissions ms, x.msg.length = 258 := by
    intro x hx
    have : x.msg ∈ (submissions ms).map (·.msg) := List.mem_map.2 ⟨x, hx, rfl⟩
    rw [hmsgs] at this
    obtain ⟨m, hm, he⟩ := List.mem_flatMap.1 this
    rw [(List.mem_replicate.1 he).2]
    exact hsize m hm
  refine ⟨?_, (C136_same_size (B := B) hL0 ht hr (fun host => ⟨_, henv host⟩) hop hsub hrun hcl).1⟩
  intro m hm o ho
  have hlen := wrap_length (hgen m hm).2.2
  obtain ⟨i, hi⟩ := List.getElem?_of_mem ho
  obtain ⟨hlt, he⟩ := List.getElem?_eq_some_iff.1 hi
  have hx : (⟨m.chains[i]'(by omega), m.msg, o⟩ : Submission) ∈ submissions ms := by
    refine List.mem_flatMap.2 ⟨m, hm, ?_⟩
    refine List.mem_iff_getElem.2 ⟨i, by simp; omega, ?_⟩
    simp [he]
  have := peels_size (open_ := fun host o => (c.env host r).decrypt o) (fun h o o' hd => C136_peel_size ((node h).decrypter (computeId S h r)) o o' (by rw [← henv h]; exact hd)) (hop _ hx)
  have h2 := this.2
  dsimp only at h2
  rw [hsize m hm] at h2
  simpa using h2

/-- C136, the other direction: between any two mixes, two onions have the same size exactly if their messages have. So if messages of other sizes were sent (AddMessages accepts
them), each could be followed through the cascade by its size. -/
theorem C136_size_tells {B : Bls} {c : Config} {L r : Nat} (hkeys : ∀ host, ∃ sk : B.G2, (c.env host r).decrypt = peel sk) {l ch ch' : Nat} {msg msg' o o' : Bytes}
    (h : Peels c.topo (fun host o => (c.env host r).decrypt o) L ch msg l o) (h' : Peels c.topo (fun host o => (c.env host r).decrypt o) L ch' msg' l o') :
    o.length = o'.length ↔ msg.length = msg'.length := by
  have hsize : ∀ h o o', (c.env h r).decrypt o = .ok o' → o.length = o'.length + 152 := by
    intro h o o' hd
    obtain ⟨sk, hk⟩ := hkeys h
    rw [hk] at hd
    exact C136_peel_size sk o o' hd
  have h1 := peels_size (fun h o o' => hsize h o o') h
  have h2 := peels_size (fun h o o' => hsize h o o') h'
  omega

/-- With two servers each message is sent over two chains. -/
theorem two_repetitions : IsRepetitions 2 2 := by
  have h4 : Real.sqrt (2 * (2 : Nat)) = 2 := by
    rw [show (2 * ((2 : Nat) : ℝ)) = 2 ^ 2 by norm_num]
    exact Real.sqrt_sq (by norm_num)
  refine ⟨2, ⟨⟨2, 0, by norm_num, by norm_num⟩, fun z _ => ?_⟩, ?_⟩
  · rw [h4]; simp
  · norm_num; rfl

/-- The hypotheses of `C136_created_system` are met by a system of two servers with two layers, one message of 258 bytes and an execution in which its onions, two of them, have
been sent. -/
example (S : Sha3) : ∃ (cs : List ServerConfig) (c : Config) (G : Generator Bls.toy) (node : Str → Node Bls.toy) (ms : List ClientMessage) (evs : List Event) (s : State),
    Created Bls.toy [[97], [98]] 1 ⟨[5, 3]⟩ [⟨[7, 1]⟩, ⟨[8, 2]⟩] cs ∧ Topology.createCascade [[97], [98]] 2 = .ok c.topo ∧ NewGenerator Bls.toy c.topo cs (.ok G) ∧
    (∀ sc ∈ cs, CreateTIBENode Bls.toy sc (.ok (node sc.hostname))) ∧
    (∀ host, (c.env host 7).decrypt = peel ((node host).decrypter (computeId S host 7))) ∧
    Generated S G 2 7 ms ∧ (∀ m ∈ ms, m.msg.length = 258) ∧ ms.length = 1 ∧ (∀ m ∈ ms, m.onions.length = 2) ∧
    Run c (init fun _ => true) evs s ∧ Clients c.topo (submissions ms) 7 evs ∧
    ∀ ch first, c.topo.mixAt 0 ch = some first → (clientOnions evs 7 first.name).Perm ((onChain (submissions ms) ch).map (·.onion)) := by
  obtain ⟨cs, hc, hh, hn, _⟩ := C39_all_built Bls.toy [[97], [98]] 1 ⟨[5, 3]⟩ [⟨[7, 1]⟩, ⟨[8, 2]⟩]
    (by decide) (by decide) (by decide) (by decide) (by simp)
  have hnodes : ∀ sc ∈ cs, ∃ n, CreateTIBENode Bls.toy sc (.ok n) := by
    intro sc hsc
    have hx : CreateTIBENode Bls.toy sc (createTIBENode Bls.toy sc sc.ibe.vssExponentPolynomials) := ⟨_, List.Perm.refl _, rfl⟩
    obtain ⟨n, hne⟩ := hn sc hsc _ hx
    exact ⟨n, hne ▸ hx⟩
  obtain ⟨t, ht, _⟩ := Topology.createCascade_eq [[97], [98]] 2
  have hgen : ∃ r, NewGenerator Bls.toy t cs r := by
    cases cs with
    | nil => exact ⟨_, rfl⟩
    | cons c cs => exact ⟨_, _, List.Perm.refl _, rfl⟩
  obtain ⟨r, hr⟩ := hgen
  obtain ⟨G, hG, _⟩ := generator_spec hc t r hr
  have hnd : (cs.map fun sc => sc.hostname).Nodup := by rw [hh]; decide
  have hex : ∀ hst : Str, ∃ n : Node Bls.toy, ∀ sc ∈ cs, sc.hostname = hst → CreateTIBENode Bls.toy sc (.ok n) := by
    intro hst
    by_cases hx : ∃ sc ∈ cs, sc.hostname = hst
    · obtain ⟨sc, hsc, he⟩ := hx
      obtain ⟨n, hn⟩ := hnodes sc hsc
      refine ⟨n, ?_⟩
      intro sc' hsc' he'
      have := List.inj_on_of_nodup_map hnd hsc' hsc (he'.trans he.symm)
      rw [this]; exact hn
    · obtain ⟨n, _⟩ : ∃ n : Node Bls.toy, True := ⟨{ poly := ⟨[]⟩, pk := (0 : Fr), secret := 0, shares := [] }, trivial⟩
      exact ⟨n, fun sc hsc he => absurd ⟨sc, hsc, he⟩ hx⟩
  choose node hnode using hex
  have hnode' : ∀ sc ∈ cs, CreateTIBENode Bls.toy sc (.ok (node sc.hostname)) := fun sc hsc => hnode _ sc hsc rfl
  let msg : Bytes := List.replicate 258 1
  let rnd : Nat → Nat → Fr × Bytes := fun _ _ => (1, List.replicate 16 0)
  let chains : List Nat := draws S 2 2 (S.sum msg)
  have hcalc : CalculateChain S 2 msg (.ok chains) := ⟨2, two_repetitions, rfl⟩
  have hch : ∀ c ∈ chains, c < 2 := by
    intro c hc
    simp only [chains, draws, List.mem_cons, List.not_mem_nil, or_false] at hc
    rcases hc with rfl | rfl <;> exact Nat.mod_lt _ (by decide)
  obtain ⟨G', onions, h1, h2, h3⟩ := C19_peel_yields_message Bls.toy S [[97], [98]] 1 _ _ cs hc 2 (by decide) t ht r hr node hnode' msg 7 chains hch rnd (by simp [rnd])
  rw [hG] at h1
  cases h1
  let c : Config := { topo := t, env := fun host r => { nCPU := 1, taskCap := 1, outCap := 1, decrypt := peel ((node host).decrypter (computeId S host r)) }, connected := fun _ => [[97], [98]] }
  let ms : List ClientMessage := [⟨msg, chains, rnd, onions⟩]
  have hgen : Generated S G 2 7 ms := by
    intro m hm
    rw [List.mem_singleton.1 hm]
    exact ⟨by simp [rnd], hcalc, h2⟩
  have hlen : onions.length = 2 := h3.length_eq.symm
  obtain ⟨hop, _⟩ := generated_opens Bls.toy S [[97], [98]] 1 _ _ cs hc 2 (by decide) (by decide) (by norm_num) c ht G (hG ▸ hr) node hnode' 7 (fun _ => rfl) ms hgen
  have hsl : (submissions ms).length < 2 ^ 63 := by
    simp [submissions, ms, hlen, chains, draws]
  have hconn : Connected c [[97], [98]] := fun _ _ h' hh' => hh'
  obtain ⟨evs, s, k1, k2, k3, k4, k5, k6, _⟩ := C87_can_complete (by decide) ht hconn (by decide : 7 < 2 ^ 32) (fun _ => Nat.one_pos) (fun _ => Nat.one_pos) (fun _ => Nat.one_pos) hsl hop
  refine ⟨cs, c, G, node, ms, evs, s, hc, ht, hG ▸ hr, hnode', fun _ => rfl, hgen, ?_, rfl, ?_, k1.run, k3, k6⟩
  · intro m hm; rw [List.mem_singleton.1 hm]; exact List.length_replicate
  · intro m hm; rw [List.mem_singleton.1 hm]; exact hlen

end Resmix.System
