import Verif.Proofs.CallM
set_option autoImplicit false
/-
What is left at rest.
-/
namespace Resmix.Rrpc.CallSystem
open Resmix.Ecc
variable {μ : Type} {K m n : Nat} {cfg : Config μ K m n} {s s' : State μ K m n} {e : Event μ K m n}

theorem empty_of {α : Type} {l : List α} (h : ∀ a rest, l = a :: rest → False) : l = [] := by
  cases l with
  | nil => rfl
  | cons a rest => exact (h a rest rfl).elim

/-- There is room for a response in the channel of its call. -/
theorem Inv.queue_room (h : Inv cfg s) (hh : Honest cfg) {c : Fin m} {r : Fin n} {k : Fin K} {a : Ans K n} (ha : a ∈ s.answers (.recv c r k)) :
    (s.answers (.queue k)).length < n := by
  have hnd := h.relays_nodup hh k (.queue k) (fun a ha => h.placeA _ a ha)
  have hpl := h.placeA _ a ha
  have hnot : a.relay ∉ (s.answers (.queue k)).map (·.relay) := by
    intro hm
    obtain ⟨b, hb, hr⟩ := List.mem_map.1 hm
    have hbk : b.call = k := h.placeA _ b hb
    have := h.ans_one hh hb ha (hbk.trans hpl.2.2.symm) hr
    cases this
  have h1 : (a.relay :: (s.answers (.queue k)).map (·.relay)).Nodup := List.nodup_cons.2 ⟨hnot, hnd⟩
  have h2 := h1.length_le_card
  simp only [List.length_cons, List.length_map, Fintype.card_fin] at h2
  omega

structure Rest (cfg : Config μ K m n) (s : State μ K m n) : Prop where
  parcels : ∀ l, (∀ d, l ≠ .collected d) → s.parcels l = []
  answers : ∀ l, (∀ k, l ≠ .queue k) → (∀ k, l ≠ .taken k) → (∀ r, l ≠ .dropped r) → s.answers l = []
  queue : ∀ k, loopResult cfg s k = none → s.answers (.queue k) = []
  jobs : ∀ k r t, s.jobs k r ≠ some ⟨t, none⟩

/-- Recording a client. -/
def isStore : Event μ K m n → Prop
  | .store _ _ => True
  | _ => False

theorem Inv.at_rest' (h : Inv cfg s) (hh : Honest cfg) (hr0 : ∀ e s', e.Own → e.Proper → ¬ isStore e → ¬ Step cfg s e s')
    (hst : ∀ r c u, s.storing r c = some u → s.parcels (.up c r) = []) : Rest cfg s := by
  have hr : ∀ e s', e.Own → e.Proper → Step cfg s e s' → (¬ isStore e) → False := fun e s' h1 h2 h3 h4 => hr0 e s' h1 h2 h4 h3
  have h0 := h.alive
  have hw := hh.window
  -- responses
  have recv : ∀ c r k, s.answers (.recv c r k) = [] := fun c r k => empty_of fun a rest hl =>
    hr (.moveA (.recv c r k)) _ trivial trivial (.moveA s _ _ a rest h0 hl rfl (h.queue_room hh (by rw [hl]; exact List.mem_cons_self))) id
  have wireC : ∀ r c, s.answers (.wireC r c) = [] := fun r c => empty_of fun a rest hl => by
    cases hp : (s.live c r).lookup ((a.msg.note.map (·.calluuid)).getD []) with
    | some k => exact hr (.answer c r) _ trivial trivial (.answer s c r k a rest h0 (fun k' => recv c r k') hl hp) id
    | none => exact hr (.answer c r) _ trivial trivial (.ignore s c r a rest h0 (fun k' => recv c r k') hl hp) id
  have resps : ∀ r c, s.answers (.resps r c) = [] := fun r c => empty_of fun a rest hl =>
    hr (.moveA (.resps r c)) _ trivial trivial (.moveA s _ _ a rest h0 hl rfl (by simp only [roomA, wireC]; exact hw)) id
  have routing : ∀ r c, s.answers (.routing r c) = [] := fun r c => empty_of fun a rest hl =>
    hr (.moveA (.routing r c)) _ trivial trivial (.moveA s _ _ a rest h0 hl rfl (by simp only [roomA, resps]; simp)) id
  have incoming : ∀ r, s.answers (.incoming r) = [] := fun r => empty_of fun a rest hl => by
    obtain ⟨x, hx, -⟩ := h.note hh (l := .incoming r) (a := a) (by rw [hl]; exact List.mem_cons_self)
    cases hp : (s.pending r).lookup x.calluuid with
    | some c => exact hr (.route r) _ trivial trivial (.route s r c a rest x h0 (fun c' => routing r c') hl hx hp) id
    | none => exact hr (.route r) _ trivial trivial (.drop s r a rest x h0 (fun c' => routing r c') hl hx hp) id
  have holding : ∀ r d, s.answers (.holding r d) = [] := fun r d => empty_of fun a rest hl =>
    hr (.moveA (.holding r d)) _ trivial trivial (.moveA s _ _ a rest h0 hl rfl (by simp only [roomA, incoming]; simp)) id
  have wire : ∀ d r, s.answers (.wire d r) = [] := fun d r => empty_of fun a rest hl =>
    hr (.moveA (.wire d r)) _ trivial trivial (.moveA s _ _ a rest h0 hl rfl (by simp only [roomA, holding])) id
  have back : ∀ d r, s.answers (.back d r) = [] := fun d r => empty_of fun a rest hl =>
    hr (.moveA (.back d r)) _ trivial trivial (.moveA s _ _ a rest h0 hl rfl (by simp only [roomA, wire]; exact hw)) id
  have proc : ∀ k r, s.answers (.proc k r) = [] := fun k r => empty_of fun a rest hl =>
    hr (.moveA (.proc k r)) _ trivial trivial (.moveA s _ _ a rest h0 hl rfl (by simp only [roomA, back]; simp)) id
  have refusing : ∀ d r, s.answers (.refusing d r) = [] := fun d r => empty_of fun a rest hl =>
    h.placeA (.refusing d r) a (by rw [hl]; exact List.mem_cons_self)
  have refusingC : ∀ d, s.answers (.refusingC d) = [] := fun d => empty_of fun a rest hl =>
    h.placeA (.refusingC d) a (by rw [hl]; exact List.mem_cons_self)
  have ignored : ∀ c r, s.answers (.ignored c r) = [] := fun c r => empty_of fun a rest hl =>
    h.placeA (.ignored c r) a (by rw [hl]; exact List.mem_cons_self)
  -- tasks
  have jobs : ∀ k r t, s.jobs k r ≠ some ⟨t, none⟩ := by
    intro k r t hj
    have hp : Behaviour.Proper (μ := μ) (fun _ _ _ => .ok []) := by intro mm u args; simp
    obtain ⟨resps, ho⟩ := h.output hh hj hp
    exact hr (.finish k r (fun _ _ _ => .ok []) []) _ trivial ⟨rfl, hp⟩ (.finish s k r _ [] t resps h0 hj ((ho _).2 rfl)) id
  -- parcels
  have collector : ∀ d, s.parcels (.collector d) = [] := fun d => empty_of fun x rest hl => by
    obtain ⟨mm, hm⟩ := h.known hh hl
    rcases hc : collectorStep cfg.net.minimalRelayedParcels 5000000000 (cfg.lookup d) (s.tasks d) (.parcel 0 (cfg.parcel x)) with ⟨tasks', outs⟩
    rcases collectorStep_cases (mn := cfg.net.minimalRelayedParcels) (ttl := 5000000000) (now := 0) (h.keys hh d) hm with h1 | ⟨t, h1, -⟩
    · rw [hc] at h1
      simp only at h1
      subst h1
      exact hr (.collect d 0) _ trivial trivial (.collect s d 0 x rest tasks' h0 hl (refusingC d) hc) id
    · rw [hc] at h1
      simp only at h1
      subst h1
      exact hr (.collect d 0) _ trivial trivial (.collectRun s d 0 x rest tasks' t h0 hl (refusingC d) hc) id
  have checking : ∀ d r, s.parcels (.checking d r) = [] := fun d r => empty_of fun x rest hl =>
    hr (.check d r [] false) _ trivial rfl (.accept s d r [] false x rest h0 hl (h.accept hh hl []) (by simp only [roomP, collector]; simp)) id
  have down : ∀ r d, s.parcels (.down r d) = [] := fun r d => empty_of fun x rest hl =>
    hr (.moveP (.down r d)) _ trivial trivial (.moveP s _ _ x rest h0 hl rfl (by simp only [roomP, checking, refusing]; simp)) id
  have toSend : ∀ r d, s.parcels (.toSend r d) = [] := fun r d => empty_of fun x rest hl =>
    hr (.moveP (.toSend r d)) _ trivial trivial (.moveP s _ _ x rest h0 hl rfl (by simp only [roomP, down]; exact hw)) id
  have handling : ∀ r c, s.parcels (.handling r c) = [] := fun r c => empty_of fun x rest hl =>
    hr (.forward r c) _ trivial trivial (.forward s r c x rest (cfg.calls x.1).server h0 hl ((hh.forward x _).2 rfl) (by simp only [roomP, toSend]; simp)) id
  have up : ∀ c r, s.parcels (.up c r) = [] := fun c r => by
    cases hs : s.storing r c with
    | some u => exact hst r c u hs
    | none =>
      exact empty_of fun x rest hl => hr (.moveP (.up c r)) _ trivial trivial (.moveP s _ _ x rest h0 hl rfl (by simp only [roomP, handling, hs]; simp)) id
  have requests : ∀ c r, s.parcels (.requests c r) = [] := fun c r => empty_of fun x rest hl =>
    hr (.moveP (.requests c r)) _ trivial trivial (.moveP s _ _ x rest h0 hl rfl (by simp only [roomP, up]; exact hw)) id
  have sending : ∀ k, s.parcels (.sending k) = [] := fun k => empty_of fun x rest hl =>
    hr (.moveP (.sending k)) _ trivial trivial (.moveP s _ _ x rest h0 hl rfl (by simp only [roomP, requests]; simp)) id
  have ask : ∀ k, s.parcels (.ask k) = [] := fun k => empty_of fun x rest hl =>
    hr (.register k) _ trivial trivial (.register s k x rest h0 hl (by simp only [roomP, sending])) id
  refine ⟨?_, ?_, ?_, jobs⟩
  · intro l hl
    cases l with
    | collected d => exact (hl d rfl).elim
    | _ => first | exact ask _ | exact sending _ | exact requests _ _ | exact up _ _ | exact handling _ _ | exact toSend _ _ | exact down _ _ | exact checking _ _ | exact collector _
  · intro l h1 h2 h3
    cases l with
    | queue k => exact (h1 k rfl).elim
    | taken k => exact (h2 k rfl).elim
    | dropped r => exact (h3 r rfl).elim
    | _ => first | exact proc _ _ | exact refusing _ _ | exact refusingC _ | exact back _ _ | exact wire _ _ | exact holding _ _ | exact incoming _ | exact routing _ _ | exact resps _ _ | exact wireC _ _ | exact recv _ _ _ | exact ignored _ _
  · intro k hk
    exact empty_of fun a rest hl => hr (.take k []) _ trivial trivial (.take s k [] a rest h0 hk ⟨ask k, sending k⟩ hl) id

theorem Inv.at_rest (h : Inv cfg s) (hh : Honest cfg) (hr : AtRest cfg s) : Rest cfg s :=
  h.at_rest' hh (fun e s' h1 h2 _ => hr e s' h1 h2) (fun r c u hs => (hr (.store r c) _ trivial trivial (.store s r c u h.alive hs)).elim)

/-- All parcels of a begun call have been collected. -/
theorem Inv.all_collected (h : Inv cfg s) (hr : Rest cfg s) {k : Fin K} (hb : s.begun k = true) (r : Fin n) : (k, r) ∈ s.parcels (.collected (cfg.calls k).server) := by
  obtain ⟨l, hl⟩ := h.somewhere k r hb
  by_cases hc : ∃ d, l = .collected d
  · obtain ⟨d, rfl⟩ := hc
    have : (cfg.calls k).server = d := h.placeP _ _ hl
    rw [this]; exact hl
  · push Not at hc
    rw [hr.parcels l hc] at hl; cases hl

/-- The handler of a begun call with a timely collector has run once. -/
theorem Inv.ran (h : Inv cfg s) (hh : Honest cfg) (hr : Rest cfg s) {k : Fin K} (hb : s.begun k = true)
    (ht : Timely cfg.net.minimalRelayedParcels.toNat 5000000000 (cfg.uuid k) (s.history (cfg.calls k).server)) :
    ∃ r0 t b, s.jobs k r0 = some ⟨t, some b⟩ := by
  have hlen : cfg.net.minimalRelayedParcels ≤ (Rrpc.callParcels (cfg.uuid k) (s.history (cfg.calls k).server)).length := by
    rw [h.callParcels hh, List.length_map]
    have hsub : ((List.finRange n).map fun r => (k, r)) ⊆ (s.parcels (.collected (cfg.calls k).server)).filter (fun x => decide (x.1 = k)) := by
      intro x hx
      obtain ⟨r, -, rfl⟩ := List.mem_map.1 hx
      exact List.mem_filter.2 ⟨h.all_collected hr hb r, by simp⟩
    have hnd : ((List.finRange n).map fun r => (k, r)).Nodup := (List.nodup_finRange n).map (fun a b hab => by injection hab)
    have := (List.Nodup.subperm hnd hsub).length_le
    rw [List.length_map, List.length_finRange] at this
    have hmin : cfg.net.minimalRelayedParcels = cfg.net.serverAddresses.length - (cfg.net.tau - 1) := rfl
    rw [hh.servers] at hmin
    have := hh.tau
    omega
  obtain ⟨mm, hm⟩ := (hh.calls k).method
  obtain ⟨-, ps, hp, hps⟩ := hh.parcels k
  obtain ⟨t, ht1, -⟩ := C53_exactly_once_partial cfg.net cfg.C hh.code (by rw [hh.servers]; exact hh.majority) (cfg.lookup (cfg.calls k).server) (cfg.calls k).method mm hm
    (cfg.calls k).note (cfg.calls k).args (hh.calls k).size ps hp (s.history (cfg.calls k).server) ht
    (by rw [← hps]; exact subperm_map _ (h.subperm hh k _)) hlen
  have h1 : (tasksFor cfg s k).length = 1 := by
    unfold tasksFor Config.uuid; rw [ht1]; rfl
  rw [h.jobsLen k] at h1
  obtain ⟨r0, hr0⟩ := Finset.card_eq_one.1 h1
  have : r0 ∈ Finset.univ.filter fun r => (s.jobs k r).isSome = true := by rw [hr0]; exact Finset.mem_singleton_self _
  have := (Finset.mem_filter.1 this).2
  obtain ⟨⟨t', b⟩, hj⟩ := Option.isSome_iff_exists.1 this
  cases b with
  | none => exact (hr.jobs k r0 t' hj).elim
  | some b => exact ⟨r0, t', b, hj⟩

/-- With few ignored responses the call has returned. -/
theorem Inv.returned (h : Inv cfg s) (hh : Honest cfg) (hr : Rest cfg s) {k : Fin K} (hc : s.cancelled k = false)
    {r0 : Fin n} {t : CTask μ} {b : Behaviour μ} (hj : s.jobs k r0 = some ⟨t, some b⟩) (hi : ((ignoredBy s k).card : Int) ≤ cfg.net.maxErrors) :
    robustRequest cfg.net ((s.taken k).map Answer.ev) ≠ none := by
  intro hnone
  have hloop : loopResult cfg s k = none := by
    unfold loopResult; rw [hc]; simpa using hnone
  have hq := hr.queue k hloop
  have hcover : ∀ r, r ∈ ignoredBy s k ∨ r ∈ ((s.answers (.taken k)).map (·.relay)).toFinset := by
    intro r
    have h1 : 0 < cnt (fun a => decide (a.call = k ∧ a.relay = r)) s.answers := by
      rw [h.counts k r]
      exact Finset.card_pos.2 ⟨r0, Finset.mem_filter.2 ⟨Finset.mem_univ _, by rw [hj]; rfl⟩⟩
    obtain ⟨l, a, ha, hp⟩ := cnt_pos _ _ h1
    simp only [decide_eq_true_eq] at hp
    by_cases c1 : ∃ r', l = .dropped r'
    · obtain ⟨r', rfl⟩ := c1
      have : a.relay = r' := h.placeA _ a ha
      left
      refine Finset.mem_filter.2 ⟨Finset.mem_univ _, a, ?_, hp.1⟩
      rw [← hp.2, this]; exact ha
    · by_cases c2 : ∃ k', l = .taken k'
      · obtain ⟨k', rfl⟩ := c2
        have : a.call = k' := h.placeA _ a ha
        right
        rw [List.mem_toFinset]
        refine List.mem_map.2 ⟨a, ?_, hp.2⟩
        rw [← hp.1, this]; exact ha
      · by_cases c3 : ∃ k', l = .queue k'
        · obtain ⟨k', rfl⟩ := c3
          have h2 : a.call = k' := h.placeA _ a ha
          rw [← h2, hp.1, hq] at ha; cases ha
        · push Not at c1 c2 c3
          rw [hr.answers l c3 c2 c1] at ha; cases ha
  have hcard : n ≤ (ignoredBy s k).card + (s.taken k).length := by
    have h1 : (Finset.univ : Finset (Fin n)) ⊆ ignoredBy s k ∪ ((s.answers (.taken k)).map (·.relay)).toFinset := by
      intro r _
      rw [Finset.mem_union]; exact hcover r
    have h2 := Finset.card_le_card h1
    have h3 := Finset.card_union_le (ignoredBy s k) ((s.answers (.taken k)).map (·.relay)).toFinset
    have h4 := List.toFinset_card_le ((s.answers (.taken k)).map (·.relay))
    rw [List.length_map, ← (h.taken k).length_eq] at h4
    rw [Finset.card_univ, Fintype.card_fin] at h2
    omega
  refine (h.reply hh k).2.1 ?_ hnone
  have hmin : cfg.net.minimalRelayedParcels = cfg.net.serverAddresses.length - (cfg.net.tau - 1) := rfl
  have hmax : cfg.net.maxErrors = cfg.net.tau - 1 := rfl
  rw [hh.servers] at hmin
  omega

end Resmix.Rrpc.CallSystem
