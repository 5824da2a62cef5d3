import Verif.Proofs.CallH
set_option autoImplicit false
/-
Invariants of the system of robust calls.
-/
namespace Resmix.Rrpc.CallSystem
open Resmix.Ecc
variable {μ : Type} {K m n : Nat} {cfg : Config μ K m n}

/-- Where a parcel may be. -/
def placeP (cfg : Config μ K m n) : PLoc K m n → Fin K × Fin n → Prop
  | .ask k, x => x.1 = k
  | .sending k, x => x.1 = k
  | .requests c r, x => (cfg.calls x.1).client = c ∧ x.2 = r
  | .up c r, x => (cfg.calls x.1).client = c ∧ x.2 = r
  | .handling r c, x => (cfg.calls x.1).client = c ∧ x.2 = r
  | .toSend r d, x => x.2 = r ∧ (cfg.calls x.1).server = d
  | .down r d, x => x.2 = r ∧ (cfg.calls x.1).server = d
  | .checking d r, x => x.2 = r ∧ (cfg.calls x.1).server = d
  | .collector d, x => (cfg.calls x.1).server = d
  | .collected d, x => (cfg.calls x.1).server = d

/-- Where a response may be. -/
def placeA (cfg : Config μ K m n) : ALoc K m n → Ans K n → Prop
  | .proc k _, a => a.call = k
  | .refusing _ _, _ => False
  | .refusingC _, _ => False
  | .back d r, a => a.relay = r ∧ (cfg.calls a.call).server = d
  | .wire _ r, a => a.relay = r
  | .holding r _, a => a.relay = r
  | .incoming r, a => a.relay = r
  | .routing r c, a => a.relay = r ∧ (cfg.calls a.call).client = c
  | .resps r c, a => a.relay = r ∧ (cfg.calls a.call).client = c
  | .wireC r c, a => a.relay = r ∧ (cfg.calls a.call).client = c
  | .recv c r k, a => a.relay = r ∧ (cfg.calls a.call).client = c ∧ a.call = k
  | .queue k, a => a.call = k
  | .taken k, a => a.call = k
  | .dropped r, a => a.relay = r
  | .ignored _ _, _ => False

/-- The relay has routed the response to the client. -/
def routed : ALoc K m n → Bool
  | .routing _ _ => true
  | .resps _ _ => true
  | .wireC _ _ => true
  | .recv _ _ _ => true
  | .queue _ => true
  | .taken _ => true
  | _ => false

/-- The client has got the response. -/
def got : ALoc K m n → Bool
  | .recv _ _ _ => true
  | .queue _ => true
  | .taken _ => true
  | _ => false

/-- The parcels among a collector's events. -/
def arrivals (evs : List CEv) : List Parcel := evs.filterMap fun | .parcel _ p => some p | .tick _ => none

theorem arrivals_append (a b : List CEv) : arrivals (a ++ b) = arrivals a ++ arrivals b := List.filterMap_append

theorem callParcels_arrivals (u : Str) (evs : List CEv) : callParcels u evs = (arrivals evs).filter (fun p => decide (p.note.calluuid = u)) := by
  induction evs with
  | nil => rfl
  | cons e evs ih =>
    cases e with
    | tick now => simpa [callParcels, arrivals] using ih
    | parcel now p =>
      by_cases h : p.note.calluuid = u
      · simpa [callParcels, arrivals, h] using ih
      · simpa [callParcels, arrivals, h] using ih

/-- The parcel has been sent, or is about to be. -/
def asked (s : State μ K m n) (k : Fin K) (r : Fin n) : Prop := s.begun k = true ∧ (k, r) ∉ s.parcels (.ask k)

/-- The handler of the goroutine has returned. -/
def done : Option (Job μ) → Bool
  | some ⟨_, some _⟩ => true
  | _ => false

/-- The response is one of a task that the server started for the call. -/
def Genuine (cfg : Config μ K m n) (s : State μ K m n) (a : Ans K n) : Prop :=
  ∃ r0 t h resps, s.jobs a.call r0 = some ⟨t, some h⟩ ∧ h.Proper ∧
    TaskOutput cfg.S cfg.H cfg.cod (cfg.key (cfg.calls a.call).server) cfg.C false cfg.net h [] t (.ok (List.ofFn resps)) ∧ a.msg = resps a.relay

structure Inv (cfg : Config μ K m n) (s : State μ K m n) : Prop where
  alive : s.crashed = false
  placeP : ∀ l x, x ∈ s.parcels l → placeP cfg l x
  once : ∀ x, cnt (fun y => decide (y = x)) s.parcels = if s.begun x.1 then 1 else 0
  hist : ∀ d, arrivals (s.history d) = (s.parcels (.collected d)).map cfg.parcel
  tasks : ∀ d, s.tasks d = (collectorRun cfg.net.minimalRelayedParcels 5000000000 (cfg.lookup d) [] (s.history d)).1
  jobsLen : ∀ k, (tasksFor cfg s k).length = (Finset.univ.filter fun r => (s.jobs k r).isSome = true).card
  jobsMem : ∀ k r j, s.jobs k r = some j → j.task ∈ tasksFor cfg s k
  jobsCol : ∀ k r j, s.jobs k r = some j → (k, r) ∈ s.parcels (.collected (cfg.calls k).server)
  placeA : ∀ l a, a ∈ s.answers l → placeA cfg l a
  genuine : ∀ l a, a ∈ s.answers l → Genuine cfg s a
  counts : ∀ k r, cnt (fun a => decide (a.call = k ∧ a.relay = r)) s.answers = (Finset.univ.filter fun r' => done (s.jobs k r') = true).card
  live : ∀ k r, asked s k r → (s.live (cfg.calls k).client r).lookup (cfg.uuid k) = some k ∨ ∃ l a, a ∈ s.answers l ∧ got l = true ∧ a.call = k ∧ a.relay = r
  lives : ∀ c r u k, (s.live c r).lookup u = some k → u = cfg.uuid k
  storing : ∀ r c u, s.storing r c = some u → ∃ k, u = cfg.uuid k ∧ (cfg.calls k).client = c ∧ asked s k r
  pending : ∀ r u c, (s.pending r).lookup u = some c → ∃ k, u = cfg.uuid k ∧ (cfg.calls k).client = c ∧ asked s k r
  routed : ∀ l a, a ∈ s.answers l → routed l = true → asked s a.call a.relay
  taken : ∀ k, List.Forall₂ (fun ans a => ∃ cache, ans = judge cfg cache a) (s.taken k) (s.answers (.taken k))

theorem inv_init (cfg : Config μ K m n) : Inv cfg init := by
  refine ⟨rfl, ?_, ?_, ?_, ?_, ?_, ?_, ?_, ?_, ?_, ?_, ?_, ?_, ?_, ?_, ?_, ?_⟩
  all_goals first
    | (intros; simp_all [init, tasksFor, collector, collectorRun, runsOf, cnt, pot, arrivals, asked, done]; done)
    | skip

variable {s : State μ K m n}

theorem Inv.cnt_le (h : Inv cfg s) (x : Fin K × Fin n) : cnt (fun y => decide (y = x)) s.parcels ≤ 1 := by
  rw [h.once]; split <;> omega

/-- A parcel is at one place only. -/
theorem Inv.at_one (h : Inv cfg s) {l l' : PLoc K m n} {x : Fin K × Fin n} (h1 : x ∈ s.parcels l) (h2 : x ∈ s.parcels l') : l = l' :=
  cnt_place _ _ (h.cnt_le x) h1 h2 (by simp) (by simp)

theorem Inv.nodup (h : Inv cfg s) (l : PLoc K m n) : (s.parcels l).Nodup := by
  rw [List.nodup_iff_count_le_one]
  intro x
  have h1 := cnt_ge (fun y => decide (y = x)) s.parcels l
  have h2 := h.cnt_le x
  have : (s.parcels l).count x = (s.parcels l).countP (fun y => decide (y = x)) := by
    unfold List.count
    congr 1
    funext y
    rw [Bool.eq_iff_iff]; simp
  omega

theorem Inv.begun (h : Inv cfg s) {l : PLoc K m n} {x : Fin K × Fin n} (h1 : x ∈ s.parcels l) : s.begun x.1 = true := by
  have h2 := cnt_ge (fun y => decide (y = x)) s.parcels l
  have h3 : 0 < (s.parcels l).countP (fun y => decide (y = x)) := List.countP_pos_iff.2 ⟨x, h1, by simp⟩
  rw [h.once] at h2
  by_contra hc
  rw [if_neg hc] at h2
  omega

theorem Inv.asked (h : Inv cfg s) {l : PLoc K m n} {x : Fin K × Fin n} (h1 : x ∈ s.parcels l) (h2 : l ≠ .ask x.1) : asked s x.1 x.2 :=
  ⟨h.begun h1, fun h3 => h2 (h.at_one h1 h3)⟩

/-- A parcel of a begun call is somewhere. -/
theorem Inv.somewhere (h : Inv cfg s) (k : Fin K) (r : Fin n) (hb : s.begun k = true) : ∃ l, (k, r) ∈ s.parcels l := by
  have h1 := h.once (k, r)
  rw [if_pos hb] at h1
  obtain ⟨l, x, hx, hp⟩ := cnt_pos (fun y => decide (y = (k, r))) s.parcels (by omega)
  have : x = (k, r) := by simpa using hp
  exact ⟨l, this ▸ hx⟩

/-- What has arrived for a call. -/
theorem Inv.callParcels (h : Inv cfg s) (hh : Honest cfg) (k : Fin K) (d : Fin n) :
    Rrpc.callParcels (cfg.uuid k) (s.history d) = ((s.parcels (.collected d)).filter fun x => decide (x.1 = k)).map cfg.parcel := by
  rw [callParcels_arrivals, h.hist d, List.filter_map]
  congr 1
  apply List.filter_congr
  intro x _
  simp only [Function.comp, decide_eq_decide]
  rw [show (cfg.parcel x).note.calluuid = cfg.uuid x.1 from ((hh.parcels x.1).1 x.2).uuid]
  exact ⟨fun e => hh.uuids _ _ e, fun e => by rw [e]⟩

theorem Inv.subperm (h : Inv cfg s) (hh : Honest cfg) (k : Fin K) (d : Fin n) :
    (Rrpc.callParcels (cfg.uuid k) (s.history d)).Subperm (List.ofFn (cfg.calls k).parcels) := by
  rw [h.callParcels hh]
  have e : List.ofFn (cfg.calls k).parcels = ((List.finRange n).map fun r => (k, r)).map cfg.parcel := by
    rw [List.map_map, List.ofFn_eq_map]; rfl
  rw [e]
  apply subperm_map
  apply List.Nodup.subperm ((h.nodup _).filter _)
  intro x hx
  have := (List.mem_filter.1 hx).2
  simp only [decide_eq_true_eq] at this
  exact List.mem_map.2 ⟨x.2, List.mem_finRange _, by rw [← this]⟩

theorem Inv.arrived_le (h : Inv cfg s) (hh : Honest cfg) (k : Fin K) (d : Fin n) : (Rrpc.callParcels (cfg.uuid k) (s.history d)).length ≤ n := by
  have := (h.subperm hh k d).length_le
  simpa using this

/-- A server starts at most one task for a call. -/
theorem Inv.one_task (h : Inv cfg s) (hh : Honest cfg) (k : Fin K) : (tasksFor cfg s k).length ≤ 1 := by
  obtain ⟨h1, h2⟩ := hh.min
  obtain ⟨-, -, -, -, h3⟩ := collector_any cfg.net.minimalRelayedParcels.toNat h2 5000000000 (cfg.lookup (cfg.calls k).server) (cfg.uuid k) (s.history (cfg.calls k).server)
  have h4 := h.arrived_le hh k (cfg.calls k).server
  have h5 := hh.majority
  rw [h1] at h3
  have h6 : cfg.net.minimalRelayedParcels.toNat * (tasksFor cfg s k).length ≤ n := by
    unfold tasksFor collector
    omega
  have h7 : n < 2 * cfg.net.minimalRelayedParcels.toNat := by omega
  by_contra hc
  have h8 : cfg.net.minimalRelayedParcels.toNat * 2 ≤ cfg.net.minimalRelayedParcels.toNat * (tasksFor cfg s k).length := Nat.mul_le_mul_left _ (by omega)
  omega

/-- What a task is made of. -/
structure TaskFacts (cfg : Config μ K m n) (k : Fin K) (t : CTask μ) : Prop where
  sub : t.parcels.Subperm (List.ofFn (cfg.calls k).parcels)
  len : (t.parcels.length : Int) = cfg.net.minimalRelayedParcels
  uuid : t.savedNote.calluuid = cfg.uuid k
  unsigned : t.savedNote.receiverMerkleProof = none
  method : cfg.lookup (cfg.calls k).server (cfg.calls k).method = .ok t.method
  args : ∀ res, ReconstructParcels cfg.C false t.parcels res ↔ res = .ok (cfg.calls k).args

theorem Inv.taskFacts (h : Inv cfg s) (hh : Honest cfg) (k : Fin K) (t : CTask μ) (ht : t ∈ tasksFor cfg s k) : TaskFacts cfg k t ∧
    t.parcels.Sublist (Rrpc.callParcels (cfg.uuid k) (s.history (cfg.calls k).server)) := by
  obtain ⟨h1, h2⟩ := hh.min
  obtain ⟨-, -, -, h3, -⟩ := collector_any cfg.net.minimalRelayedParcels.toNat h2 5000000000 (cfg.lookup (cfg.calls k).server) (cfg.uuid k) (s.history (cfg.calls k).server)
  rw [h1] at h3
  obtain ⟨⟨a1, ⟨q, hq, hm⟩, q', hq', hn⟩, a4⟩ := h3 t ht
  have hsub := a1.subperm.trans (h.subperm hh k _)
  have hmem : q ∈ List.ofFn (cfg.calls k).parcels := hsub.subset (List.mem_of_mem_head? hq)
  obtain ⟨r, hr⟩ := (List.mem_ofFn' _ _).1 hmem
  have hg := (hh.parcels k).1 r
  have hqe : q = cfg.parcel (k, r) := hr.symm
  rw [hq] at hq'
  injection hq' with hq'
  subst hq'
  rw [← hqe] at hg
  refine ⟨⟨hsub, by rw [a4]; exact h1, by rw [hn]; exact hg.uuid, by rw [hn]; exact hg.unsigned, ?_, ?_⟩, a1⟩
  · rw [← hg.method]; exact hm
  · intro res
    exact hh.reconstruct k t.parcels hsub (by rw [a4]; omega) res

theorem Inv.one_job (h : Inv cfg s) (hh : Honest cfg) {k : Fin K} {r r' : Fin n} (h1 : (s.jobs k r).isSome = true) (h2 : (s.jobs k r').isSome = true) : r = r' := by
  have h3 := h.one_task hh k
  rw [h.jobsLen k] at h3
  exact Finset.card_le_one.1 h3 r (by simp [h1]) r' (by simp [h2])

theorem done_isSome {j : Option (Job μ)} (h : done j = true) : j.isSome = true := by
  match j, h with
  | some ⟨_, some _⟩, _ => rfl

theorem Inv.counts_le (h : Inv cfg s) (hh : Honest cfg) (k : Fin K) (r : Fin n) :
    cnt (fun a => decide (a.call = k ∧ a.relay = r)) s.answers ≤ 1 := by
  rw [h.counts]
  apply Finset.card_le_one.2
  intro a ha b hb
  exact h.one_job hh (done_isSome (Finset.mem_filter.1 ha).2) (done_isSome (Finset.mem_filter.1 hb).2)

/-- There is one response of a call for every relay. -/
theorem Inv.ans_one (h : Inv cfg s) (hh : Honest cfg) {l l' : ALoc K m n} {a b : Ans K n} (h1 : a ∈ s.answers l) (h2 : b ∈ s.answers l')
    (hc : a.call = b.call) (hr : a.relay = b.relay) : l = l' :=
  cnt_place _ _ (h.counts_le hh b.call b.relay) h1 h2 (by simp [hc, hr]) (by simp)

/-- What a response says. -/
theorem Inv.note (h : Inv cfg s) (hh : Honest cfg) {l : ALoc K m n} {a : Ans K n} (ha : a ∈ s.answers l) : ∃ x, a.msg.note = some x ∧ x.calluuid = cfg.uuid a.call := by
  obtain ⟨r0, t, hd, resps, hj, hp, ho, he⟩ := h.genuine l a ha
  obtain ⟨f, -⟩ := h.taskFacts hh a.call t (h.jobsMem _ _ _ hj)
  obtain ⟨rs, h1, h2, h3, -⟩ := task_resps cfg.S cfg.H cfg.cod (cfg.key (cfg.calls a.call).server) cfg.net cfg.C hh.code (by rw [hh.servers]; exact hh.small) t
    (cfg.calls a.call).args f.args f.unsigned hd hp
  have : List.ofFn resps = rs := by have := (h1 _).1 ho; injection this
  obtain ⟨x, e1, e2, -⟩ := h3 (resps a.relay) (by rw [← this]; exact (List.mem_ofFn' _ _).2 ⟨_, rfl⟩)
  exact ⟨x, by rw [he]; exact e1, by rw [e2, f.uuid]⟩

end Resmix.Rrpc.CallSystem
