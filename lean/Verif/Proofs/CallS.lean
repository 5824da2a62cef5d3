import Verif.Proofs.CallO
set_option autoImplicit false
/-
What is left when everybody but some relays is at rest.
-/
namespace Resmix.Rrpc.CallSystem
open Resmix.Ecc
variable {μ : Type} {K m n : Nat} {cfg : Config μ K m n} {s s' : State μ K m n} {e : Event μ K m n}

/-- A method that returns nothing. -/
def quiet : Behaviour μ := fun _ _ _ => .ok []

theorem quiet_proper : (quiet : Behaviour μ).Proper := by intro mm u args; simp [quiet]

/-- Steps other than those of the relays in `A` with parcels and those of the relays in `B` with responses; methods return nothing. -/
def Allowed (A B : Finset (Fin n)) : Event μ K m n → Prop
  | .moveP (.up _ r) => r ∉ A
  | .forward r _ => r ∉ A
  | .store r _ => r ∉ A
  | .moveP (.toSend r _) => r ∉ A
  | .moveA (.wire _ r) => r ∉ B
  | .moveA (.holding r _) => r ∉ B
  | .route r => r ∉ B
  | .moveA (.routing r _) => r ∉ B
  | .moveA (.resps r _) => r ∉ B
  | .finish _ _ h _ => h = quiet
  | _ => True

structure RestBut (cfg : Config μ K m n) (A B : Finset (Fin n)) (s : State μ K m n) : Prop where
  parcels : ∀ l x, x ∈ s.parcels l → x.2 ∉ A → ∃ d, l = .collected d
  asked : ∀ k, s.parcels (.ask k) = [] ∧ s.parcels (.sending k) = []
  handed : ∀ r d, s.parcels (.down r d) = [] ∧ s.parcels (.checking d r) = [] ∧ s.parcels (.collector d) = []
  answers : ∀ l a, a ∈ s.answers l → a.relay ∉ B → (∃ k, l = .queue k) ∨ (∃ k, l = .taken k) ∨ ∃ r, l = .dropped r
  queue : ∀ k, loopResult cfg s k = none → s.answers (.queue k) = []
  jobs : ∀ k r t, s.jobs k r ≠ some ⟨t, none⟩

/-- There is room for another request. -/
theorem Inv.requests_room (h : Inv cfg s) (hf : FewCalls cfg s) {k : Fin K} {x : Fin K × Fin n} {rest : List (Fin K × Fin n)} (hl : s.parcels (.sending k) = x :: rest) :
    (s.parcels (.requests (cfg.calls k).client x.2)).length < 100 := by
  have hx : x ∈ s.parcels (.sending k) := by rw [hl]; exact List.mem_cons_self
  have hk : x.1 = k := h.placeP _ x hx
  have hnd : (x.1 :: (s.parcels (.requests (cfg.calls k).client x.2)).map (·.1)).Nodup := by
    refine List.nodup_cons.2 ⟨fun hm => ?_, ?_⟩
    · obtain ⟨y, hy, e1⟩ := List.mem_map.1 hm
      have : y = x := Prod.ext e1 (h.placeP _ y hy).2
      subst this
      have := h.at_one hx hy
      cases this
    · refine List.Nodup.map_on ?_ (h.nodup _)
      intro a ha b hb e1
      exact Prod.ext e1 ((h.placeP _ a ha).2.trans (h.placeP _ b hb).2.symm)
  have hsub : (x.1 :: (s.parcels (.requests (cfg.calls k).client x.2)).map (·.1)).toFinset ⊆ Finset.univ.filter fun j => s.begun j = true ∧ (cfg.calls j).client = (cfg.calls k).client := by
    intro j hj
    rw [List.mem_toFinset] at hj
    rcases List.mem_cons.1 hj with rfl | hj
    · exact Finset.mem_filter.2 ⟨Finset.mem_univ _, h.begun hx, by rw [hk]⟩
    · obtain ⟨y, hy, rfl⟩ := List.mem_map.1 hj
      exact Finset.mem_filter.2 ⟨Finset.mem_univ _, h.begun hy, (h.placeP _ y hy).1⟩
  have h1 := Finset.card_le_card hsub
  rw [List.toFinset_card_of_nodup hnd, List.length_cons, List.length_map] at h1
  have := hf.1 (cfg.calls k).client
  omega

/-- There is room for another response. -/
theorem Inv.back_room (h : Inv cfg s) (hh : Honest cfg) (hf : FewCalls cfg s) {k : Fin K} {r : Fin n} {a : Ans K n} {rest : List (Ans K n)} (hl : s.answers (.proc k r) = a :: rest) :
    (s.answers (.back (cfg.calls k).server a.relay)).length < 100 := by
  have ha : a ∈ s.answers (.proc k r) := by rw [hl]; exact List.mem_cons_self
  have hk : a.call = k := h.placeA _ a ha
  have hbegun : ∀ l b, b ∈ s.answers l → s.begun b.call = true := by
    intro l b hb
    obtain ⟨r0, t, b', resps, hj, -⟩ := h.genuine l b hb
    exact h.begun (h.jobsCol _ _ _ hj)
  have hnd : (a.call :: (s.answers (.back (cfg.calls k).server a.relay)).map (·.call)).Nodup := by
    refine List.nodup_cons.2 ⟨fun hm => ?_, ?_⟩
    · obtain ⟨y, hy, e1⟩ := List.mem_map.1 hm
      have := h.ans_one hh ha hy e1.symm (h.placeA _ y hy).1.symm
      cases this
    · rw [List.nodup_iff_count_le_one]
      intro j
      have h1 := h.counts_le hh j a.relay
      have h2 := cnt_ge (fun b : Ans K n => decide (b.call = j ∧ b.relay = a.relay)) s.answers (.back (cfg.calls k).server a.relay)
      have h3 : List.count j ((s.answers (.back (cfg.calls k).server a.relay)).map (·.call)) ≤
          (s.answers (.back (cfg.calls k).server a.relay)).countP (fun b : Ans K n => decide (b.call = j ∧ b.relay = a.relay)) := by
        rw [List.count_eq_countP, List.countP_map]
        apply List.countP_mono_left
        intro b hb hj
        simp only [Function.comp, beq_iff_eq] at hj
        exact decide_eq_true ⟨hj, (h.placeA _ b hb).1⟩
      omega
  have hsub : (a.call :: (s.answers (.back (cfg.calls k).server a.relay)).map (·.call)).toFinset ⊆ Finset.univ.filter fun j => s.begun j = true ∧ (cfg.calls j).server = (cfg.calls k).server := by
    intro j hj
    rw [List.mem_toFinset] at hj
    rcases List.mem_cons.1 hj with rfl | hj
    · exact Finset.mem_filter.2 ⟨Finset.mem_univ _, hbegun _ _ ha, by rw [hk]⟩
    · obtain ⟨y, hy, rfl⟩ := List.mem_map.1 hj
      exact Finset.mem_filter.2 ⟨Finset.mem_univ _, hbegun _ _ hy, (h.placeA _ y hy).2⟩
  have h1 := Finset.card_le_card hsub
  rw [List.toFinset_card_of_nodup hnd, List.length_cons, List.length_map] at h1
  have := hf.2 (cfg.calls k).server
  omega

theorem Inv.rest_but (h : Inv cfg s) (hh : Honest cfg) (hf : FewCalls cfg s) (A B : Finset (Fin n))
    (hr0 : ∀ e s', e.Own → e.Proper → Allowed A B e → ¬ Step cfg s e s') : RestBut cfg A B s := by
  have hr : ∀ e s', e.Own → e.Proper → Step cfg s e s' → Allowed A B e → False := fun e s' h1 h2 h3 h4 => hr0 e s' h1 h2 h4 h3
  have h0 := h.alive
  have hw := hh.window
  have recv : ∀ c r k, s.answers (.recv c r k) = [] := fun c r k => empty_of fun a rest hl =>
    hr (.moveA (.recv c r k)) _ trivial trivial (.moveA s _ _ a rest h0 hl rfl (h.queue_room hh (by rw [hl]; exact List.mem_cons_self))) trivial
  have wireC : ∀ r c, s.answers (.wireC r c) = [] := fun r c => empty_of fun a rest hl => by
    cases hp : (s.live c r).lookup ((a.msg.note.map (·.calluuid)).getD []) with
    | some k => exact hr (.answer c r) _ trivial trivial (.answer s c r k a rest h0 (fun k' => recv c r k') hl hp) trivial
    | none => exact hr (.answer c r) _ trivial trivial (.ignore s c r a rest h0 (fun k' => recv c r k') hl hp) trivial
  have resps : ∀ r c, r ∉ B → s.answers (.resps r c) = [] := fun r c hB => empty_of fun a rest hl =>
    hr (.moveA (.resps r c)) _ trivial trivial (.moveA s _ _ a rest h0 hl rfl (by simp only [roomA, wireC]; exact hw)) hB
  have routing : ∀ r c, r ∉ B → s.answers (.routing r c) = [] := fun r c hB => empty_of fun a rest hl =>
    hr (.moveA (.routing r c)) _ trivial trivial (.moveA s _ _ a rest h0 hl rfl (by simp only [roomA, resps r c hB]; simp)) hB
  have incoming : ∀ r, r ∉ B → s.answers (.incoming r) = [] := fun r hB => empty_of fun a rest hl => by
    obtain ⟨x, hx, -⟩ := h.note hh (l := .incoming r) (a := a) (by rw [hl]; exact List.mem_cons_self)
    cases hp : (s.pending r).lookup x.calluuid with
    | some c => exact hr (.route r) _ trivial trivial (.route s r c a rest x h0 (fun c' => routing r c' hB) hl hx hp) hB
    | none => exact hr (.route r) _ trivial trivial (.drop s r a rest x h0 (fun c' => routing r c' hB) hl hx hp) hB
  have holding : ∀ r d, r ∉ B → s.answers (.holding r d) = [] := fun r d hB => empty_of fun a rest hl =>
    hr (.moveA (.holding r d)) _ trivial trivial (.moveA s _ _ a rest h0 hl rfl (by simp only [roomA, incoming r hB]; simp)) hB
  have wire : ∀ d r, r ∉ B → s.answers (.wire d r) = [] := fun d r hB => empty_of fun a rest hl =>
    hr (.moveA (.wire d r)) _ trivial trivial (.moveA s _ _ a rest h0 hl rfl (by simp only [roomA, holding r d hB])) hB
  have back : ∀ d r, r ∉ B → s.answers (.back d r) = [] := fun d r hB => empty_of fun a rest hl =>
    hr (.moveA (.back d r)) _ trivial trivial (.moveA s _ _ a rest h0 hl rfl (by simp only [roomA, wire d r hB]; exact hw)) trivial
  have proc : ∀ k r, s.answers (.proc k r) = [] := fun k r => empty_of fun a rest hl =>
    hr (.moveA (.proc k r)) _ trivial trivial (.moveA s _ _ a rest h0 hl rfl (h.back_room hh hf hl)) trivial
  have refusing : ∀ d r, s.answers (.refusing d r) = [] := fun d r => empty_of fun a rest hl =>
    h.placeA (.refusing d r) a (by rw [hl]; exact List.mem_cons_self)
  have refusingC : ∀ d, s.answers (.refusingC d) = [] := fun d => empty_of fun a rest hl =>
    h.placeA (.refusingC d) a (by rw [hl]; exact List.mem_cons_self)
  have ignored : ∀ c r, s.answers (.ignored c r) = [] := fun c r => empty_of fun a rest hl =>
    h.placeA (.ignored c r) a (by rw [hl]; exact List.mem_cons_self)
  have jobs : ∀ k r t, s.jobs k r ≠ some ⟨t, none⟩ := by
    intro k r t hj
    obtain ⟨resps, ho⟩ := h.output hh hj quiet_proper
    exact hr (.finish k r quiet []) _ trivial ⟨rfl, quiet_proper⟩ (.finish s k r _ [] t resps h0 hj ((ho _).2 rfl)) rfl
  have collector : ∀ d, s.parcels (.collector d) = [] := fun d => empty_of fun x rest hl => by
    obtain ⟨mm, hm⟩ := h.known hh hl
    rcases hc : collectorStep cfg.net.minimalRelayedParcels 5000000000 (cfg.lookup d) (s.tasks d) (.parcel 0 (cfg.parcel x)) with ⟨tasks', outs⟩
    rcases collectorStep_cases (mn := cfg.net.minimalRelayedParcels) (ttl := 5000000000) (now := 0) (h.keys hh d) hm with h1 | ⟨t, h1, -⟩
    · rw [hc] at h1
      simp only at h1
      subst h1
      exact hr (.collect d 0) _ trivial trivial (.collect s d 0 x rest tasks' h0 hl (refusingC d) hc) trivial
    · rw [hc] at h1
      simp only at h1
      subst h1
      exact hr (.collect d 0) _ trivial trivial (.collectRun s d 0 x rest tasks' t h0 hl (refusingC d) hc) trivial
  have checking : ∀ d r, s.parcels (.checking d r) = [] := fun d r => empty_of fun x rest hl =>
    hr (.check d r [] false) _ trivial rfl (.accept s d r [] false x rest h0 hl (h.accept hh hl []) (by simp only [roomP, collector]; simp)) trivial
  have down : ∀ r d, s.parcels (.down r d) = [] := fun r d => empty_of fun x rest hl =>
    hr (.moveP (.down r d)) _ trivial trivial (.moveP s _ _ x rest h0 hl rfl (by simp only [roomP, checking, refusing]; simp)) trivial
  have toSend : ∀ r d, r ∉ A → s.parcels (.toSend r d) = [] := fun r d hA => empty_of fun x rest hl =>
    hr (.moveP (.toSend r d)) _ trivial trivial (.moveP s _ _ x rest h0 hl rfl (by simp only [roomP, down]; exact hw)) hA
  have handling : ∀ r c, r ∉ A → s.parcels (.handling r c) = [] := fun r c hA => empty_of fun x rest hl => by
    have hm : x ∈ s.parcels (.handling r c) := by rw [hl]; exact List.mem_cons_self
    exact hr (.forward r c) _ trivial trivial (.forward s r c x rest (cfg.calls x.1).server h0 hl ((hh.forward x _).2 rfl) (by simp only [roomP, toSend r _ hA]; simp)) hA
  have up : ∀ c r, r ∉ A → s.parcels (.up c r) = [] := fun c r hA => by
    cases hs : s.storing r c with
    | some u => exact (hr (.store r c) _ trivial trivial (.store s r c u h0 hs) hA).elim
    | none =>
      exact empty_of fun x rest hl => hr (.moveP (.up c r)) _ trivial trivial (.moveP s _ _ x rest h0 hl rfl (by simp only [roomP, handling r c hA, hs]; simp)) hA
  have requests : ∀ c r, r ∉ A → s.parcels (.requests c r) = [] := fun c r hA => empty_of fun x rest hl =>
    hr (.moveP (.requests c r)) _ trivial trivial (.moveP s _ _ x rest h0 hl rfl (by simp only [roomP, up c r hA]; exact hw)) trivial
  have sending : ∀ k, s.parcels (.sending k) = [] := fun k => empty_of fun x rest hl =>
    hr (.moveP (.sending k)) _ trivial trivial (.moveP s _ _ x rest h0 hl rfl (h.requests_room hf hl)) trivial
  have ask : ∀ k, s.parcels (.ask k) = [] := fun k => empty_of fun x rest hl =>
    hr (.register k) _ trivial trivial (.register s k x rest h0 hl (by simp only [roomP, sending])) trivial
  refine ⟨?_, fun k => ⟨ask k, sending k⟩, fun r d => ⟨down r d, checking d r, collector d⟩, ?_, ?_, jobs⟩
  · intro l x hx hA
    have hp := h.placeP l x hx
    cases l with
    | collected d => exact ⟨d, rfl⟩
    | ask k => rw [ask k] at hx; cases hx
    | sending k => rw [sending k] at hx; cases hx
    | requests c r => rw [requests c r (by rw [← hp.2]; exact hA)] at hx; cases hx
    | up c r => rw [up c r (by rw [← hp.2]; exact hA)] at hx; cases hx
    | handling r c => rw [handling r c (by rw [← hp.2]; exact hA)] at hx; cases hx
    | toSend r d => rw [toSend r d (by rw [← hp.1]; exact hA)] at hx; cases hx
    | down r d => rw [down r d] at hx; cases hx
    | checking d r => rw [checking d r] at hx; cases hx
    | collector d => rw [collector d] at hx; cases hx
  · intro l a ha hB
    have hp := h.placeA l a ha
    cases l with
    | queue k => exact .inl ⟨k, rfl⟩
    | taken k => exact .inr (.inl ⟨k, rfl⟩)
    | dropped r => exact .inr (.inr ⟨r, rfl⟩)
    | proc k r => rw [proc k r] at ha; cases ha
    | refusing d r => exact hp.elim
    | refusingC d => exact hp.elim
    | ignored c r => exact hp.elim
    | wireC r c => rw [wireC r c] at ha; cases ha
    | recv c r k => rw [recv c r k] at ha; cases ha
    | back d r => rw [back d r (by rw [← hp.1]; exact hB)] at ha; cases ha
    | wire d r =>
      have hp : a.relay = r := hp
      rw [wire d r (by rw [← hp]; exact hB)] at ha; cases ha
    | holding r d =>
      have hp : a.relay = r := hp
      rw [holding r d (by rw [← hp]; exact hB)] at ha; cases ha
    | incoming r =>
      have hp : a.relay = r := hp
      rw [incoming r (by rw [← hp]; exact hB)] at ha; cases ha
    | routing r c => rw [routing r c (by rw [← hp.1]; exact hB)] at ha; cases ha
    | resps r c => rw [resps r c (by rw [← hp.1]; exact hB)] at ha; cases ha
  · intro k hk
    exact empty_of fun a rest hl => hr (.take k []) _ trivial trivial (.take s k [] a rest h0 hk ⟨ask k, sending k⟩ hl) trivial

theorem notBy_of_allowed {D : Finset (Fin n)} (h : Allowed D D e) (ho : e.Own) : e.NotBy D := by
  intro r hr
  cases e with
  | moveP l => cases l <;> simp only [Event.relay, Option.some.injEq, reduceCtorEq] at hr <;> subst hr <;> exact h
  | moveA l => cases l <;> simp only [Event.relay, Option.some.injEq, reduceCtorEq] at hr <;> subst hr <;> exact h
  | clean r u => exact ho.elim
  | _ => simp only [Event.relay, Option.some.injEq, reduceCtorEq] at hr <;> subst hr <;> exact h

theorem Inv.at_rest_but (h : Inv cfg s) (hh : Honest cfg) (hf : FewCalls cfg s) (D : Finset (Fin n)) (hr : AtRestBut cfg D s) : RestBut cfg D D s :=
  h.rest_but hh hf D D (fun e s' ho hp ha => hr e s' ho hp (notBy_of_allowed ha ho))

/-- The parcels of a begun call have been collected. -/
theorem Inv.collected_but (h : Inv cfg s) {A B : Finset (Fin n)} (hr : RestBut cfg A B s) {k : Fin K} (hb : s.begun k = true) (r : Fin n) (hA : r ∉ A) :
    (k, r) ∈ s.parcels (.collected (cfg.calls k).server) := by
  obtain ⟨l, hl⟩ := h.somewhere k r hb
  obtain ⟨d, rfl⟩ := hr.parcels l _ hl hA
  have : (cfg.calls k).server = d := h.placeP _ _ hl
  rw [this]; exact hl

/-- The handler of a begun call with a timely collector has run once. -/
theorem Inv.ran_but (h : Inv cfg s) (hh : Honest cfg) {A B : Finset (Fin n)} (hr : RestBut cfg A B s) (hA : (A.card : Int) ≤ cfg.net.maxErrors) {k : Fin K} (hb : s.begun k = true)
    (ht : Timely cfg.net.minimalRelayedParcels.toNat 5000000000 (cfg.uuid k) (s.history (cfg.calls k).server)) :
    ∃ r0 t b, s.jobs k r0 = some ⟨t, some b⟩ := by
  have hmin : cfg.net.minimalRelayedParcels = cfg.net.serverAddresses.length - (cfg.net.tau - 1) := rfl
  have hmax : cfg.net.maxErrors = cfg.net.tau - 1 := rfl
  rw [hh.servers] at hmin
  have hlen : cfg.net.minimalRelayedParcels ≤ (Rrpc.callParcels (cfg.uuid k) (s.history (cfg.calls k).server)).length := by
    rw [h.callParcels hh, List.length_map]
    have hsub : ((List.finRange n).filter (fun r => decide (r ∉ A))).map (fun r => (k, r)) ⊆ (s.parcels (.collected (cfg.calls k).server)).filter (fun x => decide (x.1 = k)) := by
      intro x hx
      obtain ⟨r, hr', rfl⟩ := List.mem_map.1 hx
      exact List.mem_filter.2 ⟨h.collected_but hr hb r (by simpa using (List.mem_filter.1 hr').2), by simp⟩
    have hnd0 : ((List.finRange n).filter (fun r => decide (r ∉ A))).Nodup := (List.nodup_finRange n).filter _
    have hnd : (((List.finRange n).filter (fun r => decide (r ∉ A))).map fun r => (k, r)).Nodup := hnd0.map (fun a b hab => by injection hab)
    have h1 := (List.Nodup.subperm hnd hsub).length_le
    rw [List.length_map, ← List.toFinset_card_of_nodup hnd0] at h1
    have h2 : ((List.finRange n).filter (fun r => decide (r ∉ A))).toFinset = Aᶜ := by
      ext r; simp
    rw [h2, Finset.card_compl, Fintype.card_fin] at h1
    have := Finset.card_le_univ A
    rw [Fintype.card_fin] at this
    omega
  obtain ⟨mm, hm⟩ := (hh.calls k).method
  obtain ⟨-, ps, hp, hps⟩ := hh.parcels k
  obtain ⟨t, ht1, -⟩ := C53_exactly_once_partial cfg.net cfg.C hh.code (by rw [hh.servers]; exact hh.majority) (cfg.lookup (cfg.calls k).server) (cfg.calls k).method mm hm
    (cfg.calls k).note (cfg.calls k).args (hh.calls k).size ps hp (s.history (cfg.calls k).server) ht
    (by rw [← hps]; exact subperm_map _ (h.subperm hh k _)) hlen
  have h1 : (tasksFor cfg s k).length = 1 := by
    unfold tasksFor Config.uuid; rw [ht1]; rfl
  rw [h.jobsLen k] at h1
  obtain ⟨r0, hr0⟩ := Finset.card_eq_one.1 h1
  have : r0 ∈ Finset.univ.filter fun r => (s.jobs k r).isSome = true := by rw [hr0]; exact Finset.mem_singleton_self _
  have := (Finset.mem_filter.1 this).2
  obtain ⟨⟨t', b⟩, hj⟩ := Option.isSome_iff_exists.1 this
  cases b with
  | none => exact (hr.jobs k r0 t' hj).elim
  | some b => exact ⟨r0, t', b, hj⟩

/-- With few stuck and ignored responses the call has returned. -/
theorem Inv.returned_but (h : Inv cfg s) (hh : Honest cfg) {A B : Finset (Fin n)} (hr : RestBut cfg A B s) {k : Fin K} (hc : s.cancelled k = false)
    {r0 : Fin n} {t : CTask μ} {b : Behaviour μ} (hj : s.jobs k r0 = some ⟨t, some b⟩) (hi : ((B ∪ ignoredBy s k).card : Int) ≤ cfg.net.maxErrors) :
    robustRequest cfg.net ((s.taken k).map Answer.ev) ≠ none := by
  intro hnone
  have hloop : loopResult cfg s k = none := by
    unfold loopResult; rw [hc]; simpa using hnone
  have hq := hr.queue k hloop
  have hcover : ∀ r, r ∈ B ∪ ignoredBy s k ∨ r ∈ ((s.answers (.taken k)).map (·.relay)).toFinset := by
    intro r
    have h1 : 0 < cnt (fun a => decide (a.call = k ∧ a.relay = r)) s.answers := by
      rw [h.counts k r]
      exact Finset.card_pos.2 ⟨r0, Finset.mem_filter.2 ⟨Finset.mem_univ _, by rw [hj]; rfl⟩⟩
    obtain ⟨l, a, ha, hp⟩ := cnt_pos _ _ h1
    simp only [decide_eq_true_eq] at hp
    by_cases hB : r ∈ B
    · exact .inl (Finset.mem_union_left _ hB)
    rcases hr.answers l a ha (by rw [hp.2]; exact hB) with ⟨k', rfl⟩ | ⟨k', rfl⟩ | ⟨r', rfl⟩
    · have h2 : a.call = k' := h.placeA _ a ha
      rw [← h2, hp.1, hq] at ha; cases ha
    · have : a.call = k' := h.placeA _ a ha
      right
      rw [List.mem_toFinset]
      refine List.mem_map.2 ⟨a, ?_, hp.2⟩
      rw [← hp.1, this]; exact ha
    · have : a.relay = r' := h.placeA _ a ha
      left
      refine Finset.mem_union_right _ (Finset.mem_filter.2 ⟨Finset.mem_univ _, a, ?_, hp.1⟩)
      rw [← hp.2, this]; exact ha
  have hcard : n ≤ (B ∪ ignoredBy s k).card + (s.taken k).length := by
    have h1 : (Finset.univ : Finset (Fin n)) ⊆ (B ∪ ignoredBy s k) ∪ ((s.answers (.taken k)).map (·.relay)).toFinset := by
      intro r _
      rw [Finset.mem_union]; exact hcover r
    have h2 := Finset.card_le_card h1
    have h3 := Finset.card_union_le (B ∪ ignoredBy s k) ((s.answers (.taken k)).map (·.relay)).toFinset
    have h4 := List.toFinset_card_le ((s.answers (.taken k)).map (·.relay))
    rw [List.length_map, ← (h.taken k).length_eq] at h4
    rw [Finset.card_univ, Fintype.card_fin] at h2
    omega
  refine (h.reply hh k).2.1 ?_ hnone
  have hmin : cfg.net.minimalRelayedParcels = cfg.net.serverAddresses.length - (cfg.net.tau - 1) := rfl
  have hmax : cfg.net.maxErrors = cfg.net.tau - 1 := rfl
  rw [hh.servers] at hmin
  omega

end Resmix.Rrpc.CallSystem
