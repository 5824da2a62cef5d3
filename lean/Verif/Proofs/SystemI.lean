import Verif.Proofs.SystemH
set_option autoImplicit false
/-
Executions without further client calls come to rest (C87).
-/
namespace Resmix.System
open Resmix.Mixer (Messages MixOutput callOf onionsFor onionsOf resultOf workloadOf)
open Resmix.Onion (Addresses Peels groupOnionsByHostname groupOnionsByMixName)
open Resmix.Topology (Closed)
open Resmix.Sender

variable {c : Config} {r : Nat} {subs : List Submission} {hosts : List Str} {L : Nat}

theorem Run.append {s0 s s' : State} {evs evs' : List Event} (h : Run c s0 evs s) (h' : Run c s evs' s') : Run c s0 (evs ++ evs') s' := by
  induction h' with
  | nil => simpa using h
  | snoc _ hst ih => rw [← List.append_assoc]; exact ih.snoc hst

theorem own_sentBy {e : Event} (he : Own e) (n : Str) : sentBy r n e = [] := by
  cases e with
  | client h a => exact absurd rfl (he.1 h a)
  | _ => rfl

theorem own_opening {e : Event} (he : Own e) (h : Str) : isOpening h r e = false := by
  cases e with
  | client h a => exact absurd rfl (he.1 h a)
  | _ => rfl

theorem own_mem {evs evs' : List Event} (he : ∀ e ∈ evs', Own e) {h : Str} {a : Server.Action} (hm : .client h a ∈ evs ++ evs') : .client h a ∈ evs := by
  rcases List.mem_append.1 hm with hm | hm
  · exact hm
  · exact absurd rfl ((he _ hm).1 h a)

theorem own_onions {evs evs' : List Event} (he : ∀ e ∈ evs', Own e) (n : Str) : clientOnions (evs ++ evs') r n = clientOnions evs r n := by
  unfold clientOnions
  rw [List.flatMap_append, List.flatMap_eq_nil_iff.2 fun e hm => own_sentBy (he e hm) n, List.append_nil]

theorem Clients.own {t : Topology} {evs evs' : List Event} (h : Clients t subs r evs) (he : ∀ e ∈ evs', Own e) : Clients t subs r (evs ++ evs') where
  once := by
    intro h'
    have hn : evs'.filter (isOpening h' r) = [] := List.filter_eq_nil_iff.2 fun e hm => by simp [own_opening (he e hm)]
    rw [List.filter_append, hn, List.append_nil]
    exact h.once h'
  loads := fun h' ls order hm => h.loads h' ls order (own_mem he hm)
  first := fun h' ms hm => h.first h' ms (own_mem he hm)
  onions := fun ch f hf => by rw [own_onions he]; exact h.onions ch f hf

theorem Orderly.own {t : Topology} {evs evs' : List Event} (h : Orderly t r evs) (he : ∀ e ∈ evs', Own e) : Orderly t r (evs ++ evs') where
  noEnd := fun h' hm => h.noEnd h' (own_mem he hm)
  form := fun h' ms hm => h.form h' ms (own_mem he hm)

theorem onSize_le (names : List Str) (bs : List MixOutput) (h : ∀ b ∈ bs, b.logicalSender ∈ names) :
    onSize bs ≤ (names.map fun n => (onionsOf bs n).length).sum := by
  induction bs with
  | nil => simp [onSize]
  | cons b bs ih =>
    have ih := ih fun b' hb' => h b' (by simp [hb'])
    have key : ∀ ns : List Str, (ns.map fun n => (onionsOf (b :: bs) n).length).sum =
        (ns.map fun n => if b.logicalSender = n then b.onions.length else 0).sum + (ns.map fun n => (onionsOf bs n).length).sum := by
      intro ns
      induction ns with
      | nil => rfl
      | cons n ns ihn =>
        simp only [List.map_cons, List.sum_cons, ihn]
        have : (onionsOf (b :: bs) n).length = (if b.logicalSender = n then b.onions.length else 0) + (onionsOf bs n).length := by
          unfold onionsOf
          by_cases hn : b.logicalSender = n
          · rw [List.filter_cons_of_pos (by simp [hn])]; simp [hn]
          · rw [List.filter_cons_of_neg (by simp [hn])]; simp [hn]
        omega
    have hone : ∀ ns : List Str, b.logicalSender ∈ ns → b.onions.length ≤ (ns.map fun n => if b.logicalSender = n then b.onions.length else 0).sum := by
      intro ns
      induction ns with
      | nil => simp
      | cons n ns ihn =>
        intro hm
        simp only [List.map_cons, List.sum_cons]
        by_cases hn : b.logicalSender = n
        · rw [if_pos hn]; omega
        · have := ihn (by simpa [hn] using hm)
          omega
    rw [key]
    have := hone names (h b (by simp))
    simp only [onSize, List.map_cons, List.sum_cons] at ih ⊢
    omega

theorem sum_le_const {α : Type} (l : List α) (f : α → Nat) (k : Nat) (h : ∀ x ∈ l, f x ≤ k) : (l.map f).sum ≤ l.length * k := by
  induction l with
  | nil => simp
  | cons x l ih =>
    have h1 := ih fun y hy => h y (by simp [hy])
    have h2 := h x (by simp)
    simp only [List.map_cons, List.sum_cons, List.length_cons, Nat.add_mul, Nat.one_mul]
    omega

/-- A round object sends at most every submission once per mix. -/
theorem sent_le (hcl : Closed hosts L c.topo) {k : Prop} {evs : List Event} {s : State} (hi : RInv c r subs k evs s) {h : Str} {i : Nat} {m : Mixer.State}
    (hm : (s.servers h).objs[i]? = some (r, m)) (hc : m.crashed = false) : onSize m.sent ≤ c.topo.mixes.length * subs.length := by
  obtain ⟨A, a⟩ := hi.v
  have hmx := mixerOf_eq (hi.si h) hm
  obtain ⟨w, order, m0, hord, h0, hx, hw, hexp⟩ := a.v.mixer h m hmx
  have hspec := Mixer.newMixers_spec h0
  refine le_trans (onSize_le ((Server.ownMixes c.topo h order).map (·.name)) _ ?_) ?_
  · intro b hb
    obtain ⟨ms, hms, _⟩ := Mixer.exec_sent_known hx hc hspec.2.2.2.2.2.2.2.2.2 b hb
    obtain ⟨ms0, hms0, _⟩ := Mixer.exec_some hx hc (Mixer.init_added h0) hspec.2.2.2.2.1 hms
    obtain ⟨u, hu, hun, _⟩ := hspec.1 _ _ hms0
    exact List.mem_map.2 ⟨u, hu, hun⟩
  · refine le_trans (sum_le_const _ _ subs.length ?_) (Nat.mul_le_mul_right _ ?_)
    · intro n hn
      obtain ⟨u, hu, rfl⟩ := List.mem_map.1 hn
      obtain ⟨hmem, huh⟩ := (Server.mem_ownMixes hcl hord).1 hu
      obtain ⟨l, ch, hat⟩ := mixAt_of_mem hcl hmem
      have hb : (onionsOf m.sent u.name).Subperm (X c r subs ch (l + 1)) := subperm_of_count fun o => by
        have := a.v.bnd (l + 1) ch o
        simp only [upSent, hat, huh, hmx, sentOf] at this
        exact this
      have h1 := hb.length_le
      rw [X_length] at h1
      exact le_trans h1 (List.length_filter_le _ _)
    · rw [List.length_map, ← hord.length_eq]
      exact List.length_filterMap_le _ _

theorem srvSent_le {srv : Server.State} {f : Nat → Nat} (h : ∀ e ∈ srv.objs, onSize e.2.sent ≤ f e.1) : srvSent srv ≤ ((srv.objs.map (·.1)).map f).sum := by
  unfold srvSent
  generalize srv.objs = l at h
  induction l with
  | nil => simp
  | cons e l ih =>
    have h1 := ih fun x hx => h x (by simp [hx])
    have h2 := h e (by simp)
    simp only [List.map_cons, List.sum_cons]
    omega

theorem AllOrderly.own {evs evs' : List Event} (h : AllOrderly c L evs) (he : ∀ e ∈ evs', Own e) : AllOrderly c L (evs ++ evs') := by
  intro r hr
  obtain ⟨subs, h1, h2, h3⟩ := h r hr
  exact ⟨subs, h1, h2.own he, h3.own he⟩

/-- The batches the senders of this execution forward. -/
theorem fwd_cost (hL : 0 < L) (hc : Topology.createCascade hosts L = .ok c.topo) (hconn : Connected c hosts) {conn : Str → Bool} {evs : List Event} {s : State}
    (hrun : Run c (init conn) evs s) (hall : AllOrderly c L evs) (h : Str) (i r' : Nat) (m : Mixer.State) (out : MixOutput) (rest : List MixOutput)
    (rqs : List Request) (hm : (s.servers h).objs[i]? = some (r', m)) (ho : m.output = out :: rest) (hb : SendBatch (c.sender h r') out (.ok rqs)) :
    netPot rqs ≤ 12 * out.onions.length := by
  have hcl := Topology.closed_of_create hc
  have hr : r' < 2 ^ 32 := by
    obtain ⟨subs, h1, h2, h3⟩ := hall 0 (by omega)
    exact ((rinv_run hL hc h1 (by omega) hrun h2).si h).small _ (List.mem_of_getElem? hm)
  obtain ⟨subs, h1, h2, h3⟩ := hall r' hr
  have hi := rinv_run hL hc h1 hr hrun h2
  obtain ⟨A, a⟩ := hi.v
  have hcm := mixer_safe hcl h1 hi h3 hm
  obtain ⟨l, ch, u, mm, hu, huh, hun, hmm, haddr⟩ := batch_known hcl h1 a.v (h := h) (mixerOf_eq (hi.si h) hm) hcm ho
  obtain ⟨first, hf, hfne⟩ := first_layer hcl hu
  exact rqs_cost (s := c.sender h r') hf hfne haddr (hconn _ (huh ▸ host_mem hcl hu) _ (host_mem hcl hmm)) hb

theorem within_run (hL : 0 < L) (hc : Topology.createCascade hosts L = .ok c.topo) {conn : Str → Bool} {evs : List Event} {s : State}
    (hrun : Run c (init conn) evs s) (hall : AllOrderly c L evs) : ∃ H : Finset Str, Within H s := by
  refine ⟨(evs.filterMap fun e => match e with | .client h _ => some h | _ => none).toFinset, ?_⟩
  intro h hne
  obtain ⟨⟨r', m⟩, hm⟩ := List.exists_mem_of_ne_nil _ hne
  obtain ⟨i, hi⟩ := List.getElem?_of_mem hm
  have hr : r' < 2 ^ 32 := by
    obtain ⟨subs, h1, h2, h3⟩ := hall 0 (by omega)
    exact ((rinv_run hL hc h1 (by omega) hrun h2).si h).small _ hm
  obtain ⟨subs, h1, h2, h3⟩ := hall r' hr
  have hinv := rinv_run hL hc h1 hr hrun h2
  obtain ⟨e, he, ho⟩ := hinv.opened h (by rw [mixerOf_eq (hinv.si h) hi]; rfl)
  rw [List.mem_toFinset, List.mem_filterMap]
  refine ⟨e, he, ?_⟩
  cases e with
  | client h' a =>
    cases a <;> simp [isOpening] at ho
    simp [ho.1]
  | _ => simp [isOpening] at ho

theorem bounded (hL : 0 < L) (hc : Topology.createCascade hosts L = .ok c.topo) (hconn : Connected c hosts) {conn : Str → Bool} {evs : List Event} {s : State}
    (hrun : Run c (init conn) evs s) (hall : AllOrderly c L evs) :
    ∃ N, ∀ evs' s', Run c s evs' s' → (∀ e ∈ evs', Own e) → evs'.length ≤ N ∧ SameRounds s s' := by
  have hcl := Topology.closed_of_create hc
  obtain ⟨H, hH⟩ := within_run hL hc hrun hall
  choose! subs hsubs using hall
  let f : Nat → Nat := fun r => c.topo.mixes.length * (subs r).length
  have hall : AllOrderly c L evs := fun r hr => ⟨subs r, hsubs r hr⟩
  have key : ∀ evs' s', Run c s evs' s' → (∀ e ∈ evs', Own e) →
      pot H s' + 12 * sentAll H s + evs'.length ≤ pot H s + 12 * sentAll H s' ∧ SameRounds s s' := by
    intro evs' s' hr'
    induction hr' with
    | nil => intro _; exact ⟨by simp, SameRounds.refl s⟩
    | snoc hr1 hst ih =>
      next evs1 s1 s2 e =>
      intro hown
      have ho1 : ∀ e ∈ evs1, Own e := fun e he => hown e (by simp [he])
      obtain ⟨i1, i2⟩ := ih ho1
      have hrun1 := hrun.append hr1
      have hall1 := hall.own ho1
      obtain ⟨sub0, z1, z2, z3⟩ := hall1 0 (by omega)
      have hrun2 := hrun.append (hr1.snoc hst)
      obtain ⟨p1, p2⟩ := pot_step (r := 0) (H := H) hst (hown e (by simp)) (i2.within hH) (rinv_run hL hc z1 (by omega) hrun1 z2).si
        (no_crash hL hc hconn hrun2 (hall.own hown)) (fwd_cost hL hc hconn hrun1 hall1)
      refine ⟨?_, i2.trans p2⟩
      rw [List.length_append, List.length_singleton]
      omega
  refine ⟨pot H s + 12 * ∑ h ∈ H, (((s.servers h).objs.map (·.1)).map f).sum, fun evs' s' hr' hown => ?_⟩
  obtain ⟨k1, k2⟩ := key evs' s' hr' hown
  refine ⟨?_, k2⟩
  have hrun' := hrun.append hr'
  have hle : sentAll H s' ≤ ∑ h ∈ H, (((s.servers h).objs.map (·.1)).map f).sum := by
    unfold sentAll
    refine Finset.sum_le_sum fun h _ => ?_
    rw [← (k2 h).1]
    refine srvSent_le ?_
    rintro ⟨r', m⟩ hm
    obtain ⟨i, hi⟩ := List.getElem?_of_mem hm
    have hr : r' < 2 ^ 32 := by
      obtain ⟨z1, z2, z3⟩ := hsubs 0 (by omega)
      exact ((rinv_run hL hc z1 (by omega) hrun' (z2.own hown)).si h).small _ hm
    obtain ⟨z1, z2, z3⟩ := hsubs r' hr
    have hinv := rinv_run hL hc z1 hr hrun' (z2.own hown)
    exact sent_le hcl hinv hi (mixer_safe hcl z1 hinv (z3.own hown) hi)
  omega

/-! ### Lossless continuations -/

/-- Requests in flight go to hosts of the topology. -/
theorem net_hosts (hL : 0 < L) (hc : Topology.createCascade hosts L = .ok c.topo) (hop : Opens c r L subs) (hr : r < 2 ^ 32) {conn : Str → Bool}
    {evs : List Event} {s : State} (hrun : Run c (init conn) evs s) (hcls : Clients c.topo subs r evs) (hord : Orderly c.topo r evs) :
    ∀ rq ∈ s.net, rq.round = r → rq.host ∈ hosts := by
  have hcl := Topology.closed_of_create hc
  induction hrun with
  | nil => intro rq hrq; cases hrq
  | snoc hrun hst ih =>
    next evs s s' e =>
    have ih := ih hcls.prefix_ hord.prefix_
    have hi := rinv_run hL hc hop hr hrun hcls.prefix_
    have hf : ∀ (h : Str) (i r' : Nat) (m : Mixer.State) (out : MixOutput) (rest : List MixOutput) (rqs : List Request), (s.servers h).objs[i]? = some (r', m) →
        m.output = out :: rest → Emits (c.sender h r') out rqs → ∀ rq ∈ s.net ++ rqs, rq.round = r → rq.host ∈ hosts := by
      intro h i r' m out rest rqs hm ho hb rq hrq hrr
      rcases List.mem_append.1 hrq with hrq | hrq
      · exact ih rq hrq hrr
      · have h1 := emits_round hb rq hrq
        have h2 := (hi.si h).small _ (List.mem_of_getElem? hm)
        have h3 : rq.round = r' := by rw [h1]; exact Nat.mod_eq_of_lt h2
        obtain rfl : r' = r := h3.symm.trans hrr
        have hcm := mixer_safe hcl hop hi hord.prefix_ hm
        obtain ⟨A, a⟩ := hi.v
        obtain ⟨l, ch, u, mm, hu, huh, hun, hmm, haddr⟩ := batch_known hcl hop a.v (h := h) (mixerOf_eq (hi.si h) hm) hcm ho
        obtain ⟨first, hf, hfne⟩ := first_layer hcl hu
        rw [((emits_spec hb (s := c.sender h r') hf hfne haddr).1 rq hrq).2]
        exact host_mem hcl hmm
    cases hst with
    | client ha hs => exact ih
    | work ha hs => exact ih
    | forward hm ho hs hb => exact hf _ _ _ _ _ _ _ hm ho (emits_of_batch hb)
    | panic hm ho hs hb => exact hf _ _ _ _ _ _ _ hm ho (emits_of_panic hb)
    | deliver hk hs => exact fun rq hrq => ih rq (List.mem_of_mem_eraseIdx hrq)
    | drop hk => exact fun rq hrq => ih rq (List.mem_of_mem_eraseIdx hrq)

theorem lossless_continue (hL : 0 < L) (hc : Topology.createCascade hosts L = .ok c.topo) (hconn : Connected c hosts) {conn : Str → Bool} {evs : List Event} {s : State}
    (hrun : LosslessRun c r (init conn) evs s) (hr : r < 2 ^ 32) (hall : AllOrderly c L evs) (hopen : ∀ h ∈ hosts, (s.servers h).rounds.lookup r ≠ none)
    {evs' : List Event} {s' : State} (hr' : Run c s evs' s') (hown : ∀ e ∈ evs', Own e) : LosslessRun c r (init conn) (evs ++ evs') s' := by
  obtain ⟨_, hb⟩ := bounded hL hc hconn hrun.run hall
  induction hr' with
  | nil => simpa using hrun
  | snoc hr1 hst ih =>
    next evs1 s1 s2 e =>
    have ho1 : ∀ e ∈ evs1, Own e := fun e he => hown e (by simp [he])
    rw [← List.append_assoc]
    refine (ih ho1).snoc ?_ hst
    have hsame := (hb evs1 s1 hr1 ho1).2
    have hoe : Own e := hown e (by simp)
    cases hst with
    | client ha hs => exact absurd rfl (hoe.1 _ _)
    | drop hk => exact absurd rfl (hoe.2 _)
    | work ha hs => trivial
    | forward hm ho hs hb => trivial
    | panic hm ho hs hb => trivial
    | deliver hk hs =>
      intro rq hrq hrr
      obtain ⟨subs, z1, z2, z3⟩ := hall r hr
      have := net_hosts hL hc z1 hr (hrun.run.append hr1) (z2.own ho1) (z3.own ho1) rq (List.mem_of_getElem? hrq) hrr
      rw [(hsame rq.host).2]
      exact hopen _ this

end Resmix.System
