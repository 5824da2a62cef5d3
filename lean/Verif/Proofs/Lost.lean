import Verif.Spec.Lost
import Verif.Proofs.SystemG
import Verif.Proofs.SystemI
set_option autoImplicit false
/-
An execution that loses requests is, but for the requests in flight, one that does not: the lost requests are still on their way (C143).
-/
namespace Resmix.System
open Resmix.Mixer (Messages MixOutput callOf onionsFor onionsOf resultOf workloadOf)
open Resmix.Sender

variable {c : Config} {r : Nat} {hosts : List Str} {L : Nat}

def isClient : Event → Bool
  | .client _ _ => true
  | _ => false

theorem shadow {P : State → Event → Prop} {s0 : State} (h0 : s0.net = []) {evs : List Event} {lost : List Request} {s : State} (h : LossyRun c r P s0 evs lost s) :
    ∃ evs' t, Run c s0 evs' t ∧ ((∀ s e, P s e → Heard r s e) → LosslessRun c r s0 evs' t) ∧ t.servers = s.servers ∧ t.net.Perm (lost ++ s.net) ∧
      evs'.filter isClient = evs.filter isClient := by
  induction h with
  | nil => exact ⟨[], s0, .nil, fun _ => .nil, rfl, by simp, rfl⟩
  | @snoc evs lost s s' e hr hp hst ih =>
    obtain ⟨evs', t, i1, i2, i3, i4, i5⟩ := ih
    have one : ∀ {e' : Event} {t' : State}, Step c t e' t' → (Heard r s e → Keeps r t e') → t'.servers = s'.servers → t'.net.Perm ((lost ++ lostBy r s e) ++ s'.net) →
        [e'].filter isClient = [e].filter isClient → ∃ evs' t, Run c s0 evs' t ∧ ((∀ s e, P s e → Heard r s e) → LosslessRun c r s0 evs' t) ∧ t.servers = s'.servers ∧
          t.net.Perm ((lost ++ lostBy r s e) ++ s'.net) ∧ evs'.filter isClient = (evs ++ [e]).filter isClient :=
      fun h1 h2 h3 h4 h5 => ⟨_, _, i1.snoc h1, fun hP => (i2 hP).snoc (h2 (hP _ _ hp)) h1, h3, h4, by rw [List.filter_append, List.filter_append, i5, h5]⟩
    have zero : t.servers = s'.servers → t.net.Perm ((lost ++ lostBy r s e) ++ s'.net) → isClient e = false →
        ∃ evs' t, Run c s0 evs' t ∧ ((∀ s e, P s e → Heard r s e) → LosslessRun c r s0 evs' t) ∧ t.servers = s'.servers ∧
          t.net.Perm ((lost ++ lostBy r s e) ++ s'.net) ∧ evs'.filter isClient = (evs ++ [e]).filter isClient :=
      fun h3 h4 h5 => ⟨evs', t, i1, i2, h3, h4, by rw [List.filter_append, i5]; simp [h5]⟩
    have hset : ∀ (h : Str) (srv : Server.State), (t.setServer h srv).servers = (s.setServer h srv).servers := by intro h srv; simp [State.setServer, i3]
    have erase : ∀ {k k' : Nat} {rq : Request}, s.net[k]? = some rq → t.net[k']? = some rq → (t.net.eraseIdx k').Perm (lost ++ s.net.eraseIdx k) := by
      intro k k' rq hk hk'
      have h1 := Mixer.perm_eraseIdx _ _ _ hk
      have h2 := Mixer.perm_eraseIdx _ _ _ hk'
      have h3 : (rq :: t.net.eraseIdx k').Perm (rq :: (lost ++ s.net.eraseIdx k)) :=
        h2.symm.trans (i4.trans ((h1.append_left lost).trans List.perm_middle))
      exact h3.cons_inv
    have kept : ∀ {k : Nat} {rq : Request}, s.net[k]? = some rq → t.net.Perm ((lost ++ [rq]) ++ s.net.eraseIdx k) := by
      intro k rq hk
      refine i4.trans ?_
      rw [List.append_assoc]
      exact (Mixer.perm_eraseIdx _ _ _ hk).append_left lost
    cases hst with
    | @client h a srv resp ha hs =>
      refine one (e' := .client h a) (.client ha (by rw [i3]; exact hs)) ?_ (hset _ _) (by simpa [lostBy, State.setServer] using i4) rfl
      intro hh
      cases a <;> simp only [Keeps, Heard] at hh ⊢
      rw [i3]; exact hh
    | @work h a srv resp ha hs =>
      exact one (e' := .work h a) (.work ha (by rw [i3]; exact hs)) (fun _ => trivial) (hset _ _) (by simpa [lostBy, State.setServer] using i4) rfl
    | @forward h i r' m out rest srv resp rqs hm ho hs hb =>
      refine one (e' := .forward h i) (.forward (by rw [i3]; exact hm) ho (by rw [i3]; exact hs) hb) (fun _ => trivial) (hset _ _) ?_ rfl
      simpa [lostBy] using i4.append_right rqs
    | @panic h i r' m out rest srv resp rqs hm ho hs hb =>
      refine one (e' := .forward h i) (.panic (by rw [i3]; exact hm) ho (by rw [i3]; exact hs) hb) (fun _ => trivial) (hset _ _) ?_ rfl
      simpa [lostBy] using i4.append_right rqs
    | @deliver k rq srv resp hk hs =>
      by_cases hl : rq.round = r ∧ (s.servers rq.host).rounds.lookup r = none
      · have hsrv : srv = s.servers rq.host := by
          unfold Server.step at hs
          split at hs
          · cases hs
          · simp only [hl.1, hl.2, Option.some.injEq, Prod.mk.injEq] at hs
            exact hs.1.symm
        refine zero ?_ ?_ rfl
        · subst hsrv
          rw [i3]
          funext h'
          simp only [State.setServer]
          split
          · next h => rw [h]
          · rfl
        · have : lostBy r s (.deliver k) = [rq] := by simp [lostBy, hk, List.filter_cons, hl.1, hl.2]
          rw [this]
          exact kept hk
      · obtain ⟨k', hk'⟩ := List.getElem?_of_mem (i4.mem_iff.2 (List.mem_append_right _ (List.mem_of_getElem? hk)))
        refine one (e' := .deliver k') (.deliver hk' (by rw [i3]; exact hs)) ?_ (hset _ _) ?_ rfl
        · intro _ rq' hrq hro
          rw [hk'] at hrq; cases hrq
          rw [i3]
          exact fun hn => hl ⟨hro, hn⟩
        · have : lostBy r s (.deliver k) = [] := by
            simp only [lostBy, hk, Option.toList_some, List.filter_cons, List.filter_nil]
            rw [if_neg]
            simpa using hl
          rw [this, List.append_nil]
          exact erase hk hk'
    | @drop k rq hk =>
      by_cases hl : rq.round = r
      · refine zero i3 ?_ rfl
        have : lostBy r s (.drop k) = [rq] := by simp [lostBy, hk, List.filter_cons, hl]
        rw [this]
        exact kept hk
      · obtain ⟨k', hk'⟩ := List.getElem?_of_mem (i4.mem_iff.2 (List.mem_append_right _ (List.mem_of_getElem? hk)))
        refine one (e' := .drop k') (.drop hk') ?_ i3 ?_ rfl
        · intro _ rq' hrq hro
          rw [hk'] at hrq; cases hrq
          exact hl hro
        · have : lostBy r s (.drop k) = [] := by simp [lostBy, hk, hl]
          rw [this, List.append_nil]
          exact erase hk hk'

theorem mem_client {evs evs' : List Event} (h : evs'.filter isClient = evs.filter isClient) {h' : Str} {a : Server.Action} : .client h' a ∈ evs' ↔ .client h' a ∈ evs := by
  have : ∀ l : List Event, .client h' a ∈ l ↔ .client h' a ∈ l.filter isClient := by intro l; simp [List.mem_filter, isClient]
  rw [this, h, ← this]

theorem clientOnions_filter (n : Str) (evs : List Event) : clientOnions evs r n = clientOnions (evs.filter isClient) r n := by
  unfold clientOnions
  induction evs with
  | nil => rfl
  | cons e evs ih =>
    cases e with
    | client h a => rw [List.filter_cons_of_pos rfl, List.flatMap_cons, List.flatMap_cons, ih]
    | _ => rw [List.filter_cons_of_neg (by simp [isClient]), List.flatMap_cons, ih]; rfl

theorem clientOnions_congr {evs evs' : List Event} (h : evs'.filter isClient = evs.filter isClient) (n : Str) : clientOnions evs' r n = clientOnions evs r n := by
  rw [clientOnions_filter, h, ← clientOnions_filter]

theorem opening_filter (h : Str) (evs : List Event) : evs.filter (isOpening h r) = (evs.filter isClient).filter (isOpening h r) := by
  rw [List.filter_filter]
  refine List.filter_congr fun e _ => ?_
  cases e with
  | client => simp [isClient]
  | _ => rfl

theorem Clients.congr {t : Topology} {subs : List Submission} {evs evs' : List Event} (h : evs'.filter isClient = evs.filter isClient) (hc : Clients t subs r evs) :
    Clients t subs r evs' where
  once := fun h' => by rw [opening_filter, h, ← opening_filter]; exact hc.once h'
  loads := fun h' ls order hm => hc.loads h' ls order ((mem_client h).1 hm)
  first := fun h' ms hm => hc.first h' ms ((mem_client h).1 hm)
  onions := fun ch f hf => by rw [clientOnions_congr h]; exact hc.onions ch f hf

theorem Orderly.congr {t : Topology} {evs evs' : List Event} (h : evs'.filter isClient = evs.filter isClient) (ho : Orderly t r evs) : Orderly t r evs' where
  noEnd := fun h' hm => ho.noEnd h' ((mem_client h).1 hm)
  form := fun h' ms hm => ho.form h' ms ((mem_client h).1 hm)

/-- A mix that has not got its whole workload has forwarded nothing. -/
theorem short_silent {env : Mixer.Env} {topo : Topology} {mixes : List LogicalMix} {w : GoMap Str Int} {s0 s : Mixer.State} {acts : List Mixer.Action}
    (h0 : Mixer.newMixers topo mixes w = .ok s0) (hnd : (mixes.map (·.name)).Nodup) (hx : Mixer.exec env s0 acts = some s) {mix : LogicalMix} (hmix : mix ∈ mixes)
    {pk : Str × Str} (hpk : Mixer.ExpectsOnly topo w mix pk) (hlt : (Mixer.delivered acts mix.name).length < workloadOf w mix.name)
    (hne : Mixer.NoEmptyBatch acts mix.name) : onionsOf s.sent mix.name = [] := by
  have live : ∀ (acts : List Mixer.Action) (s : Mixer.State), Mixer.exec env s0 acts = some s → s.crashed = false →
      (Mixer.delivered acts mix.name).length < workloadOf w mix.name → Mixer.NoEmptyBatch acts mix.name → onionsOf s.sent mix.name = [] := by
    intro acts s hx hc hlt hne
    obtain ⟨_, h1, h2⟩ := Mixer.C10_forwards_once_partial h0 hnd hx hc hmix hpk
    have key : ∀ b ∈ s.sent, b.logicalSender ≠ mix.name := by
      intro b hb hbn
      by_cases hl : mix.layer + 1 = topo.layers.length
      · exact h1 hl b hb hbn
      · obtain ⟨_, hget, _⟩ := h2 hl hne (by omega) (by omega)
        obtain ⟨_, _, _, _, _, _, _, _, hfull, _⟩ := Mixer.outputs_of_get h0 hx (by omega) (hget b hb hbn)
        omega
    simp only [onionsOf]
    rw [List.filter_eq_nil_iff.2 (fun b hb => by simpa using key b hb)]
    rfl
  cases hc : s.crashed with
  | false => exact live acts s hx hc hlt hne
  | true =>
    induction acts using List.reverseRecOn with
    | nil => cases hx; rw [(Mixer.newMixers_spec h0).2.2.2.2.2.2.2.2.2]; rfl
    | append_singleton acts a _ =>
      obtain ⟨s1, hx1, hst⟩ := Mixer.exec_snoc hx
      have hd : (Mixer.delivered acts mix.name).length ≤ (Mixer.delivered (acts ++ [a]) mix.name).length := by
        simp [Mixer.delivered]
      have := live acts s1 hx1 (Mixer.step_not_crashed hst) (by omega) (fun a' ha' => hne a' (List.mem_append_left _ ha'))
      obtain ⟨g1, g2⟩ := Mixer.step_output hst
      by_cases ha : a = .recv
      · obtain ⟨b, q, _, rfl⟩ := g2 ha
        exact this
      · obtain ⟨extra, _, e2, e3⟩ := g1 ha
        rw [e2, e3 hc, List.append_nil]
        exact this

theorem LossyRun.run {P : State → Event → Prop} {s0 : State} {evs : List Event} {lost : List Request} {s : State} (h : LossyRun c r P s0 evs lost s) : Run c s0 evs s := by
  induction h with
  | nil => exact .nil
  | snoc _ _ hst ih => exact ih.snoc hst

theorem Run.lossy {s0 : State} {evs : List Event} {s : State} (h : Run c s0 evs s) : ∃ lost, LossyRun c r (fun _ _ => True) s0 evs lost s := by
  induction h with
  | nil => exact ⟨[], .nil⟩
  | snoc _ hst ih => obtain ⟨lost, ih⟩ := ih; exact ⟨_, ih.snoc trivial hst⟩

theorem LossyRun.weaken {P Q : State → Event → Prop} {s0 : State} {evs : List Event} {lost : List Request} {s : State} (h : LossyRun c r P s0 evs lost s)
    (hPQ : ∀ s e, P s e → Q s e) : LossyRun c r Q s0 evs lost s := by
  induction h with
  | nil => exact .nil
  | snoc _ hp hst ih => exact ih.snoc (hPQ _ _ hp) hst

theorem lost_round {P : State → Event → Prop} {s0 : State} {evs : List Event} {lost : List Request} {s : State} (h : LossyRun c r P s0 evs lost s) :
    ∀ rq ∈ lost, rq.round = r := by
  induction h with
  | nil => simp
  | @snoc evs lost s s' e _ _ _ ih =>
    intro rq hrq
    rcases List.mem_append.1 hrq with hrq | hrq
    · exact ih rq hrq
    · unfold lostBy at hrq
      split at hrq
      · have := (List.mem_filter.1 hrq).2
        simp only [Bool.and_eq_true, decide_eq_true_eq] at this
        exact this.1
      · simpa using (List.mem_filter.1 hrq).2
      · cases hrq

/-- Requests that carry nothing for a chain do not count for it. -/
theorem cnt_of_not_carries {t : Topology} {ch : Nat} {rqs : List Request} (h : ¬ Carries t ch rqs) {l : Nat} {mix : LogicalMix} (hm : t.mixAt l ch = some mix) (o : Bytes) :
    cnt mix.name o (netB r rqs) = 0 := by
  unfold cnt
  refine List.count_eq_zero.2 fun ho => h ?_
  obtain ⟨M, hM, hMo⟩ := List.mem_flatMap.1 ho
  obtain ⟨hM1, hM2⟩ := List.mem_filter.1 hM
  obtain ⟨rq, hrq, hM3⟩ := List.mem_flatMap.1 hM1
  split at hM3
  · exact ⟨rq, hrq, M, hM3, List.ne_nil_of_mem hMo, l, mix, hm, by simpa using hM2⟩
  · cases hM3

/-- Once the round is open everywhere, the servers alone lose nothing more. -/
theorem lossy_continue (hL : 0 < L) (hc : Topology.createCascade hosts L = .ok c.topo) (hconn : Connected c hosts) {conn : Str → Bool} {evs : List Event} {lost : List Request}
    {s : State} (hrun : LossyRun c r (Heard r) (init conn) evs lost s) (hr : r < 2 ^ 32) (hall : AllOrderly c L evs)
    (hopen : ∀ h ∈ hosts, (s.servers h).rounds.lookup r ≠ none) {evs' : List Event} {s' : State} (hr' : Run c s evs' s') (hown : ∀ e ∈ evs', Own e) :
    LossyRun c r (Heard r) (init conn) (evs ++ evs') lost s' := by
  obtain ⟨_, hb⟩ := bounded hL hc hconn hrun.run hall
  induction hr' with
  | nil => simpa using hrun
  | snoc hr1 hst ih =>
    next evs1 s1 s2 e =>
    have ho1 : ∀ e ∈ evs1, Own e := fun e he => hown e (by simp [he])
    have hsame := (hb evs1 s1 hr1 ho1).2
    have hoe : Own e := hown e (by simp)
    have hnil : lostBy r s1 e = [] := by
      cases e with
      | deliver k =>
        unfold lostBy
        rw [List.filter_eq_nil_iff]
        intro rq hrq hx
        simp only [Bool.and_eq_true, decide_eq_true_eq] at hx
        have hrq : s1.net[k]? = some rq := by simpa using hrq
        obtain ⟨subs, z1, z2, z3⟩ := hall r hr
        have := net_hosts hL hc z1 hr (hrun.run.append hr1) (z2.own ho1) (z3.own ho1) rq (List.mem_of_getElem? hrq) hx.1
        rw [(hsame rq.host).2] at hx
        exact hopen _ this hx.2
      | drop k => exact absurd rfl (hoe.2 _)
      | _ => rfl
    have hh : Heard r s1 e := by
      cases e with
      | client h a => exact absurd rfl (hoe.1 _ _)
      | _ => trivial
    have := (ih ho1).snoc hh hst
    rw [hnil, List.append_nil] at this
    rw [← List.append_assoc]
    exact this

end Resmix.System
