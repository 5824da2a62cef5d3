import Verif.Proofs.Topology
import Verif.Spec.Topology
import Mathlib.Data.List.Sort
/-
C01-C05: the cascade topology.
-/
namespace Resmix.Topology

/-- Three host names used in the non-vacuity examples ("a", "b", "c"). -/
def exampleHosts : List Str := [[97], [98], [99]]

/-- C01. `CreateCascadeTopology` always succeeds and returns exactly L layers; the hosts of each layer are a permutation of the
server list; each server name occurs L times as often among all mixes as in the server list (so exactly once per layer and
L times in total when the names are distinct). -/
theorem C01_layers_are_permutations (servers : List Str) (L : Nat) :
    ∃ t, createCascade servers L = .ok t ∧ t.layers.length = L ∧
      (∀ layer ∈ t.layers, (layer.map (·.hostname)).Perm servers) ∧
      (∀ s, (t.layers.flatten.map (·.hostname)).count s = L * servers.count s) ∧
      (∀ l i m, t.mixAt l i = some m → m.layer = l ∧ servers[m.serverIndex]? = some m.hostname) := by
  obtain ⟨t, h, _⟩ := createCascade_eq servers L
  have hc := closed_of_create h
  have hp : ∀ layer ∈ t.layers, (layer.map (·.hostname)).Perm servers := by
    intro layer hl
    rw [hc.layers] at hl
    obtain ⟨l, _, rfl⟩ := List.mem_map.1 hl
    exact rotate_hosts_perm servers L l
  have hlen : t.layers.length = L := by simp [hc.layers]
  refine ⟨t, h, hlen, hp, ?_, ?_⟩
  case refine_2 =>
    intro l i m hm
    obtain ⟨_, hi, rfl⟩ := hc.mixAt_some hm
    refine ⟨rfl, ?_⟩
    simp only [closedMix, newMix]
    exact List.getElem?_eq_getElem _
  intro s
  rw [List.map_flatten, List.count_flatten, List.map_map]
  have : (t.layers.map (List.count s ∘ List.map (·.hostname))) = List.replicate L (servers.count s) := by
    rw [List.eq_replicate_iff]
    refine ⟨by simp [hlen], ?_⟩
    intro b hb
    obtain ⟨layer, hl, rfl⟩ := List.mem_map.1 hb
    exact (hp layer hl).count_eq s
  rw [this]; simp

example : (createCascade exampleHosts 2).toOption.map (fun t => t.layers.map (·.map (·.hostname))) =
    some [[[97], [98], [99]], [[98], [99], [97]]] := by decide

/-- C02. Names are pairwise distinct over all mixes, none is GENESIS, the index has exactly L*n entries, and looking up a name
returns a mix exactly if that mix is in the cascade and carries the name. -/
theorem C02_names_unique_and_lookup_exact (servers : List Str) (L : Nat) (t : Topology)
    (h : createCascade servers L = .ok t) :
    (t.layers.flatten.map (·.name)).Nodup ∧ (∀ m ∈ t.layers.flatten, m.name ≠ genesisName) ∧
      t.mixes.length = L * servers.length ∧ GoMap.NodupKeys t.mixes ∧
      (∀ name m, t.getMix name = some m ↔ m ∈ t.layers.flatten ∧ m.name = name) := by
  have hc := closed_of_create h
  refine ⟨?_, ?_, ?_, hc.nodupKeys, ?_⟩
  · rw [hc.names]; exact nodup_flat_names servers L
  · intro m hm
    obtain ⟨l, i, _, rfl⟩ := hc.mem_flatten.1 hm
    exact mixNameOf_ne_genesis _ _
  · rw [hc.mixes.length_eq, List.length_flatten, List.map_map]
    have : ((List.range L).map (List.length ∘ entries servers)) = List.replicate L servers.length := by
      rw [List.eq_replicate_iff]
      refine ⟨by simp, ?_⟩
      intro b hb
      obtain ⟨l, _, rfl⟩ := List.mem_map.1 hb
      simp [entries]
    rw [this]; simp
  · intro name m
    constructor
    · intro hg
      obtain ⟨l, i, hl, rfl, hn⟩ := hc.getMix_some hg
      exact ⟨hc.mem_flatten.2 ⟨l, i, hl, rfl⟩, hn⟩
    · rintro ⟨hm, rfl⟩
      obtain ⟨l, i, hl, rfl⟩ := hc.mem_flatten.1 hm
      exact hc.getMix_name l i hl

example : ∃ t, createCascade exampleHosts 4 = .ok t ∧ (t.getMix [109, 40, 51, 44, 50, 41]).isSome := ⟨_, rfl, by decide⟩

/-- C03. From position i of layer 0, k hops along `Successors[0]` reach position i of layer k for k < L and nothing for k ≥ L;
from position i of the last layer, k hops along `Predecessors[0]` reach position i of layer L-1-k for k < L and nothing for
k ≥ L; every mix has exactly one successor and one predecessor name. -/
theorem C03_links_form_chains (servers : List Str) (L : Nat) (t : Topology) (h : createCascade servers L = .ok t)
    (i : Nat) (hi : i < servers.length) (hL : 0 < L) :
    (∃ first, t.mixAt 0 i = some first ∧ ∀ k, hops t.nextMix k first = if k < L then t.mixAt k i else none) ∧
    (∃ last, t.mixAt (L - 1) i = some last ∧
      ∀ k, hops t.prevMix k last = if k < L then t.mixAt (L - 1 - k) i else none) ∧
    (∀ k, k < L → (t.mixAt k i).isSome) ∧
    (∀ m ∈ t.layers.flatten, m.successors.length = 1 ∧ m.predecessors.length = 1) := by
  have hc := closed_of_create h
  have hat : ∀ l, l < L → t.mixAt l i = some (closedMix servers L l ⟨i, hi⟩) := fun l hl => hc.mixAt_eq l i hl hi
  have hnext : ∀ l, l < L → t.nextMix (closedMix servers L l ⟨i, hi⟩) =
      if l + 1 < L then some (closedMix servers L (l+1) ⟨i, hi⟩) else none := by
    intro l hl
    by_cases hlast : l = L - 1
    · have : ¬ (l + 1 < L) := by omega
      simp [nextMix, closedMix, hlast, hc.getMix_genesis]
      omega
    · have h1 : l + 1 < L := by omega
      have := hc.getMix_name (l+1) ⟨i, hi⟩ h1
      simpa [nextMix, closedMix, hlast, h1, newMix] using this
  have hprev : ∀ l, l < L → t.prevMix (closedMix servers L l ⟨i, hi⟩) =
      if l = 0 then none else some (closedMix servers L (l-1) ⟨i, hi⟩) := by
    intro l hl
    by_cases hz : l = 0
    · simp [prevMix, closedMix, hz, hc.getMix_genesis]
    · have := hc.getMix_name (l-1) ⟨i, hi⟩ (by omega)
      simpa [prevMix, closedMix, hz, newMix] using this
  have fwd : ∀ k l, l < L → hops t.nextMix k (closedMix servers L l ⟨i, hi⟩) =
      if l + k < L then some (closedMix servers L (l+k) ⟨i, hi⟩) else none := by
    intro k
    induction k with
    | zero => intro l hl; simp [hops, hl]
    | succ k ih =>
      intro l hl
      rw [hops, hnext l hl]
      by_cases h1 : l + 1 < L
      · rw [if_pos h1, Option.bind_some, ih (l+1) h1]
        simp only [Nat.add_assoc, Nat.add_comm 1 k]
      · rw [if_neg h1, if_neg (by omega)]; rfl
  have bwd : ∀ k l, l < L → hops t.prevMix k (closedMix servers L l ⟨i, hi⟩) =
      if k ≤ l then some (closedMix servers L (l-k) ⟨i, hi⟩) else none := by
    intro k
    induction k with
    | zero => intro l hl; simp [hops]
    | succ k ih =>
      intro l hl
      rw [hops, hprev l hl]
      by_cases h1 : l = 0
      · rw [if_pos h1, if_neg (by omega)]; rfl
      · rw [if_neg h1, Option.bind_some, ih (l-1) (by omega)]
        by_cases h2 : k + 1 ≤ l
        · rw [if_pos (by omega), if_pos h2]; congr 2; omega
        · rw [if_neg (by omega), if_neg h2]
  refine ⟨⟨_, hat 0 hL, ?_⟩, ⟨_, hat (L-1) (by omega), ?_⟩, ?_, ?_⟩
  · intro k
    rw [fwd k 0 hL]
    by_cases hk : k < L
    · rw [if_pos (by omega), if_pos hk, hat k hk, Nat.zero_add]
    · rw [if_neg (by omega), if_neg hk]
  · intro k
    rw [bwd k (L-1) (by omega)]
    by_cases hk : k < L
    · rw [if_pos (by omega), if_pos hk, hat _ (by omega)]
    · rw [if_neg (by omega), if_neg hk]
  · intro k hk; rw [hat k hk]; rfl
  · intro m hm
    obtain ⟨l, i, _, rfl⟩ := hc.mem_flatten.1 hm
    constructor
    · simp only [closedMix]; split <;> rfl
    · simp only [closedMix]; split <;> rfl

example : ∃ t, createCascade exampleHosts 3 = .ok t ∧
    (t.mixAt 0 1).map (fun m => (hops t.nextMix 2 m).map (·.name)) = some ((t.mixAt 2 1).map (·.name)) ∧
    (t.mixAt 2 1).map (·.name) = some (mixNameOf 2 0) := ⟨_, rfl, by decide⟩

/-- C04. With pairwise distinct servers, two different layers of one chain that are fewer than n apart run on different hosts
(in particular adjacent layers for n ≥ 2); hence every chain of at least n layers visits every server. -/
theorem C04_chain_hosts_distinct (servers : List Str) (hnd : servers.Nodup) (L : Nat) (t : Topology)
    (h : createCascade servers L = .ok t) (i : Nat) :
    (∀ l l' m m', l < l' → l' - l < servers.length → t.mixAt l i = some m → t.mixAt l' i = some m' →
      m.hostname ≠ m'.hostname) ∧
    (i < servers.length → ∀ l, l + servers.length ≤ L → ∀ s ∈ servers, ∃ d m, d < servers.length ∧
      t.mixAt (l + d) i = some m ∧ m.hostname = s) := by
  have hc := closed_of_create h
  constructor
  · intro l l' m m' hll hd hm hm' heq
    obtain ⟨hl, hi, rfl⟩ := hc.mixAt_some hm
    obtain ⟨hl', _, rfl⟩ := hc.mixAt_some hm'
    simp only [closedMix, newMix] at heq
    rw [hnd.getElem_inj_iff] at heq
    have h1 : Nat.ModEq servers.length (i + l) (i + l') := heq
    have h2 := Nat.ModEq.add_left_cancel' i h1
    have h3 := (Nat.modEq_iff_dvd' (by omega)).1 h2
    have := Nat.le_of_dvd (by omega) h3
    omega
  · intro hi l hL s hs
    obtain ⟨j, hj, rfl⟩ := List.mem_iff_getElem.1 hs
    -- d ≡ j - (i+l) mod n
    let n := servers.length
    have hn : 0 < n := by show 0 < servers.length; omega
    refine ⟨(j + (n - (i + l) % n)) % n, _, Nat.mod_lt _ hn, hc.mixAt_eq _ i (by
      have : (j + (n - (i + l) % n)) % n < n := Nat.mod_lt _ hn
      show l + (j + (n - (i + l) % n)) % n < L
      have hh : l + n ≤ L := hL
      omega) hi, ?_⟩
    simp only [closedMix, newMix]
    congr 1
    show (i + (l + (j + (n - (i + l) % n)) % n)) % n = j
    rw [← Nat.add_assoc, Nat.add_mod_mod]
    have hm : (i + l) % n < n := Nat.mod_lt _ hn
    have hdm := Nat.div_add_mod (i + l) n
    have : i + l + (j + (n - (i + l) % n)) = j + n * ((i+l)/n + 1) := by
      rw [Nat.mul_add]; omega
    rw [this, Nat.add_mul_mod_self_left, Nat.mod_eq_of_lt hj]

example : exampleHosts.Nodup ∧ exampleHosts.length = 3 := by decide

theorem layerLess_of_closed {servers : List Str} {L : Nat} {t : Topology} (hc : Closed servers L t) {l l' j j' : Nat}
    (hl : l < L) (hl' : l' < L) (hj : j < servers.length) (hj' : j' < servers.length) :
    layerLess t (mixNameOf l j) (mixNameOf l' j') = decide (l < l') := by
  have key : ∀ l j, l < L → j < servers.length → ∃ m, t.getMix (mixNameOf l j) = some m ∧ m.layer = l ∧
      m.hostname = servers[j]! := by
    intro l j hl hj
    let n := servers.length
    have hn : 0 < n := by show 0 < servers.length; omega
    have hm : l % n < n := Nat.mod_lt _ hn
    have hk : (j + (n - l % n)) % n < servers.length := Nat.mod_lt _ hn
    have hdm := Nat.div_add_mod l n
    have hmod : ((j + (n - l % n)) % n + l) % n = j := by
      rw [Nat.mod_add_mod]
      have : j + (n - l % n) + l = j + n * (l/n + 1) := by rw [Nat.mul_add]; omega
      rw [this, Nat.add_mul_mod_self_left, Nat.mod_eq_of_lt hj]
    have := hc.getMix_name l ⟨(j + (n - l % n)) % n, hk⟩ hl
    have hname : (newMix servers l ⟨(j + (n - l % n)) % n, hk⟩).name = mixNameOf l j := by
      show mixNameOf l (((j + (n - l % n)) % n + l) % n) = _
      rw [hmod]
    rw [hname] at this
    refine ⟨_, this, rfl, ?_⟩
    show servers[((j + (n - l % n)) % n + l) % n] = _
    simp only [hmod]
    rw [getElem!_pos servers j hj]
  obtain ⟨m, h1, h2, _⟩ := key l j hl hj
  obtain ⟨m', h1', h2', _⟩ := key l' j' hl' hj'
  simp [layerLess, h1, h1', h2, h2']

/-- C05. Whatever order the runtime iterates the name index in and whichever result `sort.Slice` produces, the mix list of a
server (one of pairwise distinct addresses) has one entry per layer, the l-th being the mix of layer l hosted by that
server, and contains exactly the names of the mixes it hosts. Such a list exists. -/
theorem C05_server_mix_list (servers : List Str) (hnd : servers.Nodup) (L : Nat) (t : Topology)
    (h : createCascade servers L = .ok t) (s : Str) (hs : s ∈ servers) :
    (∃ out, SetMixNames t s out) ∧
    ∀ out, SetMixNames t s out → out.length = L ∧
      (∀ l, l < L → ∃ i m, t.mixAt l i = some m ∧ m.hostname = s ∧ m.layer = l ∧ out[l]? = some m.name) ∧
      (∀ nm, nm ∈ out ↔ ∃ m, t.getMix nm = some m ∧ m.hostname = s) := by
  have hc := closed_of_create h
  obtain ⟨j, hj, rfl⟩ := List.mem_iff_getElem.1 hs
  let expected := (List.range L).map (fun l => mixNameOf l j)
  have hnexp : expected.Nodup := by
    rw [List.nodup_map_iff_inj_on List.nodup_range]
    intro a _ b _ hh; exact (mixNameOf_inj hh).1
  -- membership in the collected list
  have hmemc : ∀ order, order.Perm t.mixes → ∀ nm, nm ∈ collectMixNames t servers[j] order ↔ nm ∈ expected := by
    intro order hperm nm
    simp only [collectMixNames, List.mem_map, List.mem_filter, expected, List.mem_range]
    constructor
    · rintro ⟨⟨nm', p⟩, ⟨hmem, hany⟩, rfl⟩
      cases hg : t.getMix nm' with
      | none => simp [hg] at hany
      | some m =>
        obtain ⟨l, i, hl, rfl, hn⟩ := hc.getMix_some hg
        simp only [hg, Option.any_some, decide_eq_true_eq] at hany
        simp only [closedMix, newMix] at hany
        rw [hnd.getElem_inj_iff] at hany
        refine ⟨l, hl, ?_⟩
        show _ = nm'
        rw [← hn]; simp only [closedMix, newMix]; rw [hany]
    · rintro ⟨l, hl, rfl⟩
      let n := servers.length
      have hn : 0 < n := by show 0 < servers.length; omega
      have hm : l % n < n := Nat.mod_lt _ hn
      have hk : (j + (n - l % n)) % n < servers.length := Nat.mod_lt _ hn
      have hdm := Nat.div_add_mod l n
      have hmod : ((j + (n - l % n)) % n + l) % n = j := by
        rw [Nat.mod_add_mod]
        have : j + (n - l % n) + l = j + n * (l/n + 1) := by rw [Nat.mul_add]; omega
        rw [this, Nat.add_mul_mod_self_left, Nat.mod_eq_of_lt hj]
      have hname : (newMix servers l ⟨(j + (n - l % n)) % n, hk⟩).name = mixNameOf l j := by
        show mixNameOf l (((j + (n - l % n)) % n + l) % n) = _
        rw [hmod]
      refine ⟨(mixNameOf l j, (l, (j + (n - l % n)) % n)), ⟨?_, ?_⟩, rfl⟩
      · rw [hperm.mem_iff, hc.mixes.mem_iff, mem_flat_entries]
        exact ⟨l, ⟨_, hk⟩, hl, by rw [hname]⟩
      · show Option.any _ (t.getMix (mixNameOf l j)) = true
        rw [← hname, hc.getMix_name l _ hl]
        simp only [Option.any_some, decide_eq_true_eq]
        show servers[((j + (n - l % n)) % n + l) % n] = _
        simp only [hmod]
  have hndc : ∀ order, order.Perm t.mixes → (collectMixNames t servers[j] order).Nodup := by
    intro order hperm
    have h1 : (order.map Prod.fst).Nodup := (hperm.map Prod.fst).nodup_iff.2 hc.nodupKeys
    exact h1.sublist (List.filter_sublist.map _)
  have hpc : ∀ order, order.Perm t.mixes → (collectMixNames t servers[j] order).Perm expected := by
    intro order hperm
    exact (List.perm_ext_iff_of_nodup (hndc order hperm) hnexp).2 (hmemc order hperm)
  have hsorted : expected.Pairwise (fun a b => layerLess t b a = false) := by
    rw [List.pairwise_map]
    have := List.Pairwise.and_mem.1 (List.pairwise_lt_range (n := L))
    refine List.Pairwise.imp ?_ this
    rintro a b ⟨ha, hb, hlt⟩
    rw [layerLess_of_closed hc (by simpa using hb) (by simpa using ha) hj hj]
    simp; omega
  have huniq : ∀ out, SetMixNames t servers[j] out → out = expected := by
    rintro out ⟨order, hperm, hp, hs⟩
    have hpe := hp.trans (hpc order hperm)
    refine List.Perm.eq_of_pairwise ?_ hs hsorted hpe
    intro a b ha hb h1 h2
    obtain ⟨l, hl, rfl⟩ := List.mem_map.1 (hpe.mem_iff.1 ha)
    obtain ⟨l', hl', rfl⟩ := List.mem_map.1 hb
    rw [layerLess_of_closed hc (by simpa using hl') (by simpa using hl) hj hj] at h1
    rw [layerLess_of_closed hc (by simpa using hl) (by simpa using hl') hj hj] at h2
    simp at h1 h2
    have : l = l' := by omega
    rw [this]
  refine ⟨⟨expected, t.mixes, .refl _, (hpc _ (.refl _)).symm, hsorted⟩, ?_⟩
  intro out hout
  have he := huniq out hout
  subst he
  refine ⟨by simp [expected], ?_, ?_⟩
  · intro l hl
    let n := servers.length
    have hn : 0 < n := by show 0 < servers.length; omega
    have hm : l % n < n := Nat.mod_lt _ hn
    have hk : (j + (n - l % n)) % n < servers.length := Nat.mod_lt _ hn
    have hdm := Nat.div_add_mod l n
    have hmod : ((j + (n - l % n)) % n + l) % n = j := by
      rw [Nat.mod_add_mod]
      have : j + (n - l % n) + l = j + n * (l/n + 1) := by rw [Nat.mul_add]; omega
      rw [this, Nat.add_mul_mod_self_left, Nat.mod_eq_of_lt hj]
    refine ⟨_, _, hc.mixAt_eq l _ hl hk, ?_, rfl, ?_⟩
    · show servers[((j + (n - l % n)) % n + l) % n] = _
      simp only [hmod]
    · show expected[l]? = some (mixNameOf l (((j + (n - l % n)) % n + l) % n))
      rw [hmod]; simp [expected, hl]
  · intro nm
    rw [← hmemc t.mixes (.refl _)]
    simp only [collectMixNames, List.mem_map, List.mem_filter]
    constructor
    · rintro ⟨⟨nm', p⟩, ⟨_, hany⟩, rfl⟩
      cases hg : t.getMix nm' with
      | none => simp [hg] at hany
      | some m => simp only [hg, Option.any_some, decide_eq_true_eq] at hany; exact ⟨m, rfl, hany⟩
    · rintro ⟨m, hg, hh⟩
      cases hlook : t.mixes.lookup nm with
      | none => simp [getMix, hlook] at hg
      | some p =>
        exact ⟨(nm, p), ⟨GoMap.lookup_mem hlook, by simp [hg, hh]⟩, rfl⟩

example : ∃ t, createCascade exampleHosts 2 = .ok t ∧ ([98] : Str) ∈ exampleHosts := ⟨_, rfl, by decide⟩

end Resmix.Topology
