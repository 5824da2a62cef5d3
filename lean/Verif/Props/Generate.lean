import Verif.Proofs.Chain
import Verif.Model.Generate
import Verif.Props.Onion
set_option autoImplicit false
/-
C20, C21: choosing chains and generating messages (messages.go).
-/
namespace Resmix.Onion
open Tibe Config

/-- C20: for n chains, calculateChain returns exactly ⌈√(2n)⌉ chain numbers, all smaller than n; float rounding does not matter. -/
theorem C20_chain_count (S : Sha3) (n : Nat) (hn : 1 ≤ n) (hb : n ≤ 2 ^ 50) (msg : Bytes) (res : Go (List Nat))
    (h : CalculateChain S n msg res) :
    ∃ chains, res = .ok chains ∧ chains.length = ⌈Real.sqrt (2 * n)⌉₊ ∧ ∀ c ∈ chains, c < n := by
  obtain ⟨reps, ⟨x, hx, rfl⟩, rfl⟩ := h
  have hc := ceil_rounded hn hb hx
  have hpos : 0 < ⌈Real.sqrt (2 * n)⌉₊ := by
    rw [Nat.ceil_pos]
    apply Real.sqrt_pos.2
    have : (1 : ℝ) ≤ n := by exact_mod_cast hn
    linarith
  refine ⟨_, ?_, ?_, draws_lt S n (1 + (⌈Real.sqrt (2 * n)⌉₊ - 1)) (S.sum msg) (by omega)⟩
  · unfold calculateChain
    rw [if_neg (by omega), hc]
  · rw [draws_length]; omega

/-- C20: the chains are a function of the message. -/
theorem C20_chain_deterministic (S : Sha3) (n : Nat) (hn : 1 ≤ n) (hb : n ≤ 2 ^ 50) (msg : Bytes) (res res' : Go (List Nat))
    (h : CalculateChain S n msg res) (h' : CalculateChain S n msg res') : res = res' := by
  obtain ⟨reps, ⟨x, hx, rfl⟩, rfl⟩ := h
  obtain ⟨reps', ⟨x', hx', rfl⟩, rfl⟩ := h'
  rw [ceil_rounded hn hb hx, ceil_rounded hn hb hx']

/-- C20 and C19 together: generateOnion on a created system returns ⌈√(2n)⌉ onions, each of which peels to the message. -/
theorem C20_generateOnion (B : Bls) (S : Sha3) (addrs : List Str) (d : Nat) (dkg : Poly) (polys : List Poly) (cs : List ServerConfig)
    (h : Created B addrs d dkg polys cs) (L : Nat) (hL0 : 1 ≤ L) (hL : L ≤ 2 ^ 32) (t : Topology)
    (ht : Topology.createCascade addrs L = .ok t) (G : Generator B) (hG : NewGenerator B t cs (.ok G)) (node : Str → Node B)
    (hnode : ∀ sc ∈ cs, CreateTIBENode B sc (.ok (node sc.hostname))) (msg : Bytes) (round : Nat)
    (rnd : Nat → Nat → Fr × Bytes) (hrnd : ∀ k i, (rnd k i).2.length = 16) (res : Go (List Bytes))
    (hres : GenerateOnion S G msg round rnd res) :
    ∃ onions, res = .ok onions ∧ onions.length = ⌈Real.sqrt (2 * addrs.length)⌉₊ ∧
      ∀ o ∈ onions, ∃ c, Peels t (fun host o => peel ((node host).decrypter (computeId S host round)) o) L c msg 0 o := by
  obtain ⟨G', hG', htopo, _⟩ := generator_spec h t _ hG
  injection hG' with hG'; subst hG'
  have hc := Topology.closed_of_create ht
  obtain ⟨first, rest, hlay, hfl⟩ : ∃ first rest, G.topo.layers = first :: rest ∧ first.length = addrs.length := by
    rw [htopo, hc.layers]
    obtain ⟨L', rfl⟩ : ∃ L', L = L' + 1 := ⟨L - 1, by omega⟩
    rw [List.range_succ_eq_map, List.map_cons]
    exact ⟨_, _, rfl, by simp⟩
  unfold GenerateOnion at hres
  rw [hlay] at hres
  obtain ⟨chains, hch, rfl⟩ := hres
  have hd := h.degree_below
  have hs := h.servers_below
  rw [hfl] at hch
  obtain ⟨chs, rfl, hlen, hlt⟩ := C20_chain_count S addrs.length (by omega) (by omega) msg chains hch
  obtain ⟨G2, onions, h1, h2, h3⟩ := C19_peel_yields_message B S addrs d dkg polys cs h L hL t ht _ hG node hnode msg round chs hlt rnd hrnd
  injection h1 with h1; subst h1
  refine ⟨onions, h2, by rw [← h3.length_eq, hlen], ?_⟩
  intro o ho
  clear h2 hlen hlt hch
  induction h3 with
  | nil => cases ho
  | cons hp _ ih =>
    rcases List.mem_cons.1 ho with rfl | ho
    · exact ⟨_, hp⟩
    · exact ih ho

/-- For two chains the square root is exact; two draws are made. -/
example : IsRepetitions 2 2 := by
  refine ⟨2, ?_, by norm_num; rfl⟩
  have hs : Real.sqrt (2 * (2 : ℕ)) = 2 := by
    rw [show (2 : ℝ) * ((2 : ℕ) : ℝ) = 2 * 2 by norm_num]
    exact Real.sqrt_mul_self (by norm_num)
  rw [hs]
  refine ⟨by exact_mod_cast isFloat_nat 2 (by norm_num), ?_⟩
  intro z _
  simp

end Resmix.Onion

namespace Resmix.Generate
variable {α : Type}

theorem perThread_sum (n p : Int) (k : Nat) (hk : 0 < k) (cur : Int) : (perThread n p k cur).sum = n - cur := by
  induction k generalizing cur with
  | zero => omega
  | succ k ih =>
    unfold perThread
    by_cases h0 : k = 0
    · subst h0; simp [perThread]
    · rw [if_neg h0, List.sum_cons, ih (by omega)]; omega

theorem perThread_nonneg (n p : Int) (hp : 0 ≤ p) (k : Nat) (cur : Int) (h : cur + k * p ≤ n) : ∀ c ∈ perThread n p k cur, 0 ≤ c := by
  induction k generalizing cur with
  | zero => intro c hc; cases hc
  | succ k ih =>
    intro c hc
    unfold perThread at hc
    have hexp : ((k + 1 : Nat) : Int) * p = k * p + p := by push_cast; rw [Int.add_mul, Int.one_mul]
    have hkp : 0 ≤ (k : Int) * p := Int.mul_nonneg (by omega) hp
    rcases List.mem_cons.1 hc with rfl | hc
    · split
      · omega
      · exact hp
    · exact ih (cur + p) (by rw [hexp] at h; omega) c hc

theorem perThread_length (n p : Int) (k : Nat) (cur : Int) : (perThread n p k cur).length = k := by
  induction k generalizing cur with
  | zero => rfl
  | succ k ih => simp [perThread, ih]

/-- C21: the counts of the goroutines, one per CPU, are non-negative and add up to the number of clients. -/
theorem C21_counts (numClients : Nat) (N : Nat) (hN : 1 ≤ N) :
    (threadCounts numClients N).length = N ∧ (∀ c ∈ threadCounts numClients N, 0 ≤ c) ∧ (threadCounts numClients N).sum = numClients := by
  have ht : ((numClients : Int).tdiv N) = ((numClients / N : Nat) : Int) := by
    rw [Int.tdiv_eq_ediv_of_nonneg (by omega)]; rfl
  refine ⟨perThread_length _ _ _ _, ?_, ?_⟩
  · refine perThread_nonneg _ _ (by rw [ht]; exact Int.natCast_nonneg _) _ _ ?_
    rw [ht]
    have := Nat.mul_div_le numClients N
    have h2 : ((N : Int) * ((numClients / N : Nat) : Int)) ≤ numClients := by exact_mod_cast this
    omega
  · unfold threadCounts
    rw [perThread_sum _ _ _ (by omega)]; simp

/-- All results, each once. -/
def allResults (gen : Nat → Nat → α) (counts : List Int) : List α := (init gen counts).threads.flatten

theorem set_flatten_perm (l : List (List α)) (i : Nat) (x : α) (rest : List α) (h : l[i]? = some (x :: rest)) :
    l.flatten.Perm (x :: (l.set i rest).flatten) := by
  induction l generalizing i with
  | nil => cases h
  | cons a l ih =>
    cases i with
    | zero =>
      simp only [List.getElem?_cons_zero, Option.some.injEq] at h
      subst h; simp
    | succ i =>
      simp only [List.getElem?_cons_succ] at h
      simp only [List.flatten_cons, List.set_cons_succ]
      exact ((ih i h).append_left a).trans List.perm_middle

theorem step_inv {n : Int} {cap : Nat} {s s' : State α} {a : Action} (h : step n cap s a = some s') :
    (s'.out ++ s'.results ++ s'.threads.flatten).Perm (s.out ++ s.results ++ s.threads.flatten) ∧
    2 * s'.threads.flatten.length + s'.results.length + 1 = 2 * s.threads.flatten.length + s.results.length ∧
    (s'.results.length ≤ cap ∨ s'.results.length ≤ s.results.length) ∧
    ((s'.out.length : Int) ≤ n ∨ s'.out.length ≤ s.out.length) := by
  cases a with
  | send i =>
    unfold step at h
    simp only at h
    split at h
    · next x rest hx =>
      split at h
      · next hlt =>
        injection h with h; subst h
        have hp := set_flatten_perm s.threads i x rest hx
        refine ⟨?_, ?_, Or.inl (by simp; omega), Or.inr le_rfl⟩
        · simp only [List.append_assoc]
          refine List.Perm.append_left _ (List.Perm.append_left _ ?_)
          exact hp.symm
        · have := hp.length_eq
          simp only [List.length_append, List.length_cons, List.length_nil] at this ⊢
          omega
      · cases h
    · cases h
  | recv =>
    unfold step at h
    simp only at h
    split at h
    · cases h
    · next x rest hx =>
      split at h
      · injection h with h; subst h
        refine ⟨by rw [hx]; simp, ?_, Or.inr ?_, Or.inl ?_⟩
        · rw [hx]; simp; omega
        · rw [hx]; simp
        · simp; omega
      · cases h

theorem exec_inv {n : Int} {cap : Nat} {s s' : State α} {as : List Action} (h : exec n cap s as = some s')
    (ho : (s.out.length : Int) ≤ n) :
    (s'.out ++ s'.results ++ s'.threads.flatten).Perm (s.out ++ s.results ++ s.threads.flatten) ∧
    2 * s'.threads.flatten.length + s'.results.length + as.length = 2 * s.threads.flatten.length + s.results.length ∧
    (s'.out.length : Int) ≤ n := by
  induction as generalizing s with
  | nil => injection h with h; subst h; exact ⟨List.Perm.refl _, by simp, ho⟩
  | cons a as ih =>
    unfold exec at h
    cases hst : step n cap s a with
    | none => rw [hst] at h; cases h
    | some s1 =>
      rw [hst] at h
      obtain ⟨h1, h2, _, h4⟩ := step_inv hst
      obtain ⟨i1, i2, i3⟩ := ih h (by rcases h4 with h4 | h4 <;> omega)
      refine ⟨i1.trans h1, ?_, i3⟩
      simp only [List.length_cons]; omega

/-- C21: for every number of clients and CPUs and every schedule, (1) a run of goroutines and collector has at most 2*numClients steps;
(2) as long as the collector has fewer than numClients results some step is possible; (3) when it has numClients results, every
goroutine is finished and the channel is empty, and it has received every generated result exactly once. -/
theorem C21_collector_terminates (gen : Nat → Nat → α) (numClients N : Nat) (hN : 1 ≤ N) (s : State α) (as : List Action)
    (h : exec numClients (2 * N) (init gen (threadCounts numClients N)) as = some s) :
    as.length ≤ 2 * numClients ∧
    (s.out.length < numClients → ∃ a s', step numClients (2 * N) s a = some s') ∧
    (s.out.length = numClients → (∀ t ∈ s.threads, t = []) ∧ s.results = [] ∧ s.out.Perm (allResults gen (threadCounts numClients N))) ∧
    (allResults gen (threadCounts numClients N)).length = numClients := by
  obtain ⟨_, hnn, hsum⟩ := C21_counts numClients N hN
  have hall : (allResults gen (threadCounts numClients N)).length = numClients := by
    unfold allResults init
    simp only [List.length_flatten, List.map_map]
    have key : ∀ (l : List Int) (k : Nat), (∀ c ∈ l, 0 ≤ c) →
        (((l.zipIdx k).map (List.length ∘ fun (x : Int × Nat) => (List.range x.1.toNat).map (gen x.2))).sum : Int) = l.sum := by
      intro l
      induction l with
      | nil => intro k _; simp
      | cons c l ih =>
        intro k hc
        have h0 := hc c List.mem_cons_self
        have := ih (k + 1) (fun c' hc' => hc c' (List.mem_cons_of_mem _ hc'))
        rw [List.zipIdx_cons, List.map_cons, List.sum_cons, List.sum_cons]
        rw [Nat.cast_add, this]
        simp; exact h0
    have := key (threadCounts numClients N) 0 hnn
    rw [hsum] at this
    exact_mod_cast this
  obtain ⟨hp, hm, ho⟩ := exec_inv h (by simp [init])
  have hp' : (s.out ++ s.results ++ s.threads.flatten).Perm (allResults gen (threadCounts numClients N)) := by
    refine hp.trans ?_; simp [init, allResults]
  have hl := hp'.length_eq
  rw [hall] at hl
  simp only [List.length_append] at hl
  have hm' : 2 * s.threads.flatten.length + s.results.length + as.length = 2 * numClients := by
    rw [hm]
    have : (init gen (threadCounts numClients N)).threads.flatten.length = numClients := hall
    rw [this]; simp [init]
  refine ⟨by omega, ?_, ?_, hall⟩
  · intro hlt
    cases hr : s.results with
    | cons x rest =>
      refine ⟨.recv, { s with results := rest, out := s.out ++ [x] }, ?_⟩
      unfold step
      simp only [hr]
      rw [if_pos (by omega)]
    | nil =>
      have hne : s.threads.flatten ≠ [] := by
        intro h0; rw [h0, hr] at hl; simp at hl; omega
      obtain ⟨x, hx⟩ := List.exists_mem_of_ne_nil _ hne
      obtain ⟨t, ht, hxt⟩ := List.mem_flatten.1 hx
      obtain ⟨i, hi⟩ := List.mem_iff_getElem?.1 ht
      cases t with
      | nil => cases hxt
      | cons y ys =>
        refine ⟨.send i, { s with threads := s.threads.set i ys, results := s.results ++ [y] }, ?_⟩
        unfold step
        simp only [hi, hr]
        rw [if_pos (by simp; omega)]
  · intro heq
    have h1 : s.results = [] := List.length_eq_zero_iff.1 (by omega)
    have h2 : s.threads.flatten = [] := List.length_eq_zero_iff.1 (by omega)
    refine ⟨fun t ht => (List.flatten_eq_nil_iff.1 h2) t ht, h1, ?_⟩
    rw [h1, h2] at hp'
    simpa using hp'

/-- 7 clients on 3 CPUs: counts 2, 2, 3; a first send and receive are possible. -/
example : threadCounts 7 3 = [2, 2, 3] ∧
    (exec 7 6 (init (fun i k => (i, k)) (threadCounts 7 3)) [.send 2, .send 0, .recv]).map (fun s => s.out) = some [(2, 0)] := ⟨by decide, by decide⟩

end Resmix.Generate
