import Verif.Proofs.CallD
set_option autoImplicit false
/-
What one step does to collectors and jobs.
-/
namespace Resmix.Rrpc.CallSystem
open Resmix.Ecc
variable {μ : Type} {K m n : Nat} {cfg : Config μ K m n} {s s' : State μ K m n} {e : Event μ K m n}

inductive EffH (cfg : Config μ K m n) (s s' : State μ K m n) : Prop
  | same (hc : ∀ d, s'.parcels (.collected d) = s.parcels (.collected d)) (hh : s'.history = s.history) (ht : s'.tasks = s.tasks) (hj : s'.jobs = s.jobs)
  | tick (d : Fin n) (now : Nat) (hc : ∀ d, s'.parcels (.collected d) = s.parcels (.collected d))
      (hh : s'.history = Function.update s.history d (s.history d ++ [.tick now]))
      (ht : s'.tasks = Function.update s.tasks d (collectorStep cfg.net.minimalRelayedParcels 5000000000 (cfg.lookup d) (s.tasks d) (.tick now)).1)
      (hj : s'.jobs = s.jobs)
  | collect (d : Fin n) (now : Nat) (x : Fin K × Fin n) (hx : x ∈ s.parcels (.collector d)) (hs : (cfg.calls x.1).server = d)
      (hc : ∀ d', s'.parcels (.collected d') = if d' = d then s.parcels (.collected d) ++ [x] else s.parcels (.collected d'))
      (hh : s'.history = Function.update s.history d (s.history d ++ [.parcel now (cfg.parcel x)]))
      (ht : s'.tasks = Function.update s.tasks d (collectorStep cfg.net.minimalRelayedParcels 5000000000 (cfg.lookup d) (s.tasks d) (.parcel now (cfg.parcel x))).1)
      (hj : ((collectorStep cfg.net.minimalRelayedParcels 5000000000 (cfg.lookup d) (s.tasks d) (.parcel now (cfg.parcel x))).2 = [] ∧ s'.jobs = s.jobs) ∨
        ∃ t, (collectorStep cfg.net.minimalRelayedParcels 5000000000 (cfg.lookup d) (s.tasks d) (.parcel now (cfg.parcel x))).2 = [.run t] ∧
          t.savedNote.calluuid = cfg.uuid x.1 ∧ s'.jobs = set2 s.jobs x.1 x.2 (some ⟨t, none⟩))
  | finish (k : Fin K) (r : Fin n) (t : CTask μ) (h : Behaviour μ) (hp : h.Proper) (hc : ∀ d, s'.parcels (.collected d) = s.parcels (.collected d))
      (hh : s'.history = s.history) (ht : s'.tasks = s.tasks)
      (hj : s.jobs k r = some ⟨t, none⟩) (hj' : s'.jobs = set2 s.jobs k r (some ⟨t, some h⟩))

theorem set2_self {A B V : Type} [DecidableEq A] [DecidableEq B] (f : A → B → V) (a : A) (b : B) (v : V) : set2 f a b v a b = v := by simp [set2]

theorem set2_ne {A B V : Type} [DecidableEq A] [DecidableEq B] (f : A → B → V) (a : A) (b : B) (v : V) {a' : A} {b' : B} (h : ¬ (a' = a ∧ b' = b)) :
    set2 f a b v a' b' = f a' b' := by
  unfold set2
  by_cases ha : a' = a
  · subst ha
    rw [Function.update_self, Function.update_of_ne (fun hb => h ⟨rfl, hb⟩)]
  · rw [Function.update_of_ne ha]

theorem collected_move (f : PLoc K m n → List (Fin K × Fin n)) {d : Fin n} (x : Fin K × Fin n) (rest : List (Fin K × Fin n)) (d' : Fin n) :
    move f (.collector d) (.collected d) x rest (.collected d') = if d' = d then f (.collected d) ++ [x] else f (.collected d') := by
  by_cases h : d' = d
  · subst h
    rw [move_to (by simp), if_pos rfl]
  · rw [move_other (by simp) (by simpa using h), if_neg h]

theorem Inv.effH (h : Inv cfg s) (hh : Honest cfg) (he : e.Proper) (st : Step cfg s e s') : EffH cfg s s' := by
  cases st with
  | begin k h0 hb =>
    refine .same (fun d => ?_) rfl rfl rfl
    dsimp only; rw [Function.update_of_ne]; simp
  | register k x rest h0 hl hr =>
    refine .same (fun d => ?_) rfl rfl rfl
    dsimp only; rw [move_other] <;> simp
  | moveP l l' x rest h0 hl hn hr =>
    refine .same (fun d => ?_) rfl rfl rfl
    dsimp only; rw [move_other]
    · rintro rfl; simp [nextP] at hn
    · rintro rfl; cases l <;> simp [nextP] at hn
  | forward r c x rest d h0 hl hd hr =>
    refine .same (fun d => ?_) rfl rfl rfl
    dsimp only; rw [move_other] <;> simp
  | store r c u h0 hs => exact .same (fun d => rfl) rfl rfl rfl
  | accept d r cache tick x rest h0 hl hc hr =>
    refine .same (fun d => ?_) rfl rfl rfl
    dsimp only; rw [move_other] <;> simp
  | refuse d r cache tick x rest resp h0 hl hc =>
    simp only [Event.Proper] at he
    subst he
    rw [h.accept hh hl] at hc; cases hc
  | checkCrash d r cache tick x rest h0 hl hc =>
    simp only [Event.Proper] at he
    subst he
    rw [h.accept hh hl] at hc; cases hc
  | collect d now x rest tasks' h0 hl hb hc =>
    have hx : x ∈ s.parcels (.collector d) := by rw [hl]; exact List.mem_cons_self
    refine .collect d now x hx (h.placeP (.collector d) x hx) (collected_move _ x rest) rfl ?_ (.inl ⟨by rw [hc], rfl⟩)
    rw [hc]
  | collectRun d now x rest tasks' t h0 hl hb hc =>
    have hx : x ∈ s.parcels (.collector d) := by rw [hl]; exact List.mem_cons_self
    refine .collect d now x hx (h.placeP (.collector d) x hx) (collected_move _ x rest) rfl ?_ (.inr ⟨t, by rw [hc], ?_, rfl⟩)
    · rw [hc]
    · obtain ⟨mm, hm⟩ := h.known hh hl
      rcases collectorStep_cases (mn := cfg.net.minimalRelayedParcels) (ttl := 5000000000) (now := now) (h.keys hh d) hm with h1 | ⟨t', h1, h2⟩
      · rw [hc] at h1; simp at h1
      · rw [hc] at h1
        simp only [List.cons.injEq, COut.run.injEq, and_true] at h1
        subst h1
        rw [h2]; exact ((hh.parcels x.1).1 x.2).uuid
  | collectRefuse d now x rest tasks' i er h0 hl hb hc =>
    obtain ⟨mm, hm⟩ := h.known hh hl
    rcases collectorStep_cases (mn := cfg.net.minimalRelayedParcels) (ttl := 5000000000) (now := now) (h.keys hh d) hm with h1 | ⟨t', h1, h2⟩
    · rw [hc] at h1; simp at h1
    · rw [hc] at h1; simp at h1
  | tick d now h0 hb => exact .tick d now (fun d => rfl) rfl rfl rfl
  | finish k r hd buf t resps h0 hj ho => exact .finish k r t hd he.2 (fun d => rfl) rfl rfl hj rfl
  | _ => exact .same (fun d => rfl) rfl rfl rfl

theorem tasksFor_congr (hh : s'.history = s.history) (k : Fin K) : tasksFor cfg s' k = tasksFor cfg s k := by
  unfold tasksFor; rw [hh]

theorem tasksFor_snoc (h : Inv cfg s) (d : Fin n) (ev : CEv) (hh : s'.history = Function.update s.history d (s.history d ++ [ev])) (k : Fin K) :
    tasksFor cfg s' k = tasksFor cfg s k ++ if (cfg.calls k).server = d then
      runsOf (cfg.uuid k) (collectorStep cfg.net.minimalRelayedParcels 5000000000 (cfg.lookup d) (s.tasks d) ev).2 else [] := by
  unfold tasksFor
  rw [hh]
  by_cases hd : (cfg.calls k).server = d
  · rw [if_pos hd, hd, Function.update_self]
    unfold collector
    rw [collectorRun_append]
    simp only [collectorRun, List.append_nil]
    rw [runsOf_append, h.tasks d]
  · rw [if_neg hd, Function.update_of_ne hd, List.append_nil]

theorem tasks_snoc (h : Inv cfg s) (d : Fin n) (ev : CEv) (hh : s'.history = Function.update s.history d (s.history d ++ [ev]))
    (ht : s'.tasks = Function.update s.tasks d (collectorStep cfg.net.minimalRelayedParcels 5000000000 (cfg.lookup d) (s.tasks d) ev).1) (d' : Fin n) :
    s'.tasks d' = (collectorRun cfg.net.minimalRelayedParcels 5000000000 (cfg.lookup d') [] (s'.history d')).1 := by
  rw [ht, hh]
  by_cases hd : d' = d
  · subst hd
    rw [Function.update_self, Function.update_self, collectorRun_append]
    simp only [collectorRun]
    rw [h.tasks d']
  · rw [Function.update_of_ne hd, Function.update_of_ne hd]; exact h.tasks d'

theorem EffH.hist (f : EffH cfg s s') (h : Inv cfg s) (d : Fin n) : arrivals (s'.history d) = (s'.parcels (.collected d)).map cfg.parcel := by
  cases f with
  | same hc hh ht hj => rw [hc, hh]; exact h.hist d
  | tick d' now hc hh ht hj =>
    rw [hc, hh]
    by_cases hd : d = d'
    · subst hd
      rw [Function.update_self, arrivals_append, h.hist d]
      simp [arrivals]
    · rw [Function.update_of_ne hd]; exact h.hist d
  | collect d' now x hx hs hc hh ht hj =>
    rw [hc, hh]
    by_cases hd : d = d'
    · subst hd
      rw [Function.update_self, arrivals_append, h.hist d, if_pos rfl]
      simp [arrivals]
    · rw [Function.update_of_ne hd, if_neg hd]; exact h.hist d
  | finish k r t hd hp hc hh ht hj hj' => rw [hc, hh]; exact h.hist d

theorem EffH.tasks (f : EffH cfg s s') (h : Inv cfg s) (d : Fin n) :
    s'.tasks d = (collectorRun cfg.net.minimalRelayedParcels 5000000000 (cfg.lookup d) [] (s'.history d)).1 := by
  cases f with
  | same hc hh ht hj => rw [ht, hh]; exact h.tasks d
  | tick d' now hc hh ht hj => exact tasks_snoc h d' _ hh ht d
  | collect d' now x hx hs hc hh ht hj => exact tasks_snoc h d' _ hh ht d
  | finish k r t hd hp hc hh ht hj hj' => rw [ht, hh]; exact h.tasks d

/-- Tasks are only added. -/
theorem EffH.tasksFor (f : EffH cfg s s') (h : Inv cfg s) (k : Fin K) : ∃ l, CallSystem.tasksFor cfg s' k = CallSystem.tasksFor cfg s k ++ l := by
  cases f with
  | same hc hh ht hj => exact ⟨[], by rw [tasksFor_congr hh, List.append_nil]⟩
  | tick d' now hc hh ht hj => exact ⟨_, tasksFor_snoc h d' _ hh k⟩
  | collect d' now x hx hs hc hh ht hj => exact ⟨_, tasksFor_snoc h d' _ hh k⟩
  | finish k' r t hd hp hc hh ht hj hj' => exact ⟨[], by rw [tasksFor_congr hh, List.append_nil]⟩

/-- A parcel that is collected only now has not started a goroutine. -/
theorem Inv.fresh (h : Inv cfg s) {d : Fin n} {x : Fin K × Fin n} (hx : x ∈ s.parcels (.collector d)) : s.jobs x.1 x.2 = none := by
  cases hj : s.jobs x.1 x.2 with
  | none => rfl
  | some j => have := h.at_one hx (h.jobsCol x.1 x.2 j hj); cases this

theorem EffH.jobsLen (f : EffH cfg s s') (h : Inv cfg s) (hu : Honest cfg) (k : Fin K) :
    (CallSystem.tasksFor cfg s' k).length = (Finset.univ.filter fun r => (s'.jobs k r).isSome = true).card := by
  cases f with
  | same hc hh ht hj => rw [tasksFor_congr hh, hj]; exact h.jobsLen k
  | tick d' now hc hh ht hj =>
    rw [tasksFor_snoc h d' _ hh k, hj]
    simp only [collectorStep, show runsOf (cfg.uuid k) ([] : List (COut μ)) = [] from rfl, ite_self, List.append_nil]
    exact h.jobsLen k
  | finish k' r t hd hp hc hh ht hj hj' =>
    rw [tasksFor_congr hh, h.jobsLen k, hj']
    congr 1
    ext r'
    simp only [Finset.mem_filter, Finset.mem_univ, true_and]
    by_cases hk : k = k' ∧ r' = r
    · obtain ⟨rfl, rfl⟩ := hk
      rw [set2_self, hj]; simp
    · rw [set2_ne _ _ _ _ hk]
  | collect d' now x hx hs hc hh ht hj =>
    rw [tasksFor_snoc h d' _ hh k]
    rcases hj with ⟨ho, hj⟩ | ⟨t, ho, htu, hj⟩
    · rw [ho, hj]
      simp only [show runsOf (cfg.uuid k) ([] : List (COut μ)) = [] from rfl, ite_self, List.append_nil]
      exact h.jobsLen k
    · rw [ho]
      by_cases hk : k = x.1
      · subst hk
        rw [if_pos hs]
        have hro : runsOf (cfg.uuid x.1) [COut.run t] = [t] := by simp [runsOf, htu]
        rw [hro, List.length_append, h.jobsLen, hj]
        have hset : (Finset.univ.filter fun r => (set2 s.jobs x.1 x.2 (some ⟨t, none⟩) x.1 r).isSome = true) =
            insert x.2 (Finset.univ.filter fun r => (s.jobs x.1 r).isSome = true) := by
          ext r
          simp only [Finset.mem_filter, Finset.mem_univ, true_and, Finset.mem_insert]
          by_cases hr : r = x.2
          · subst hr; rw [set2_self]; simp
          · rw [set2_ne _ _ _ _ (fun hc => hr hc.2)]; simp [hr]
        rw [hset, Finset.card_insert_of_notMem]
        · rfl
        · simp [h.fresh hx]
      · have hro : runsOf (cfg.uuid k) [COut.run t] = [] := by
          have : cfg.uuid x.1 ≠ cfg.uuid k := fun e => hk (hu.uuids _ _ e).symm
          simp [runsOf, htu, this]
        rw [hro, ite_self, List.append_nil, h.jobsLen, hj]
        congr 1
        ext r
        simp only [Finset.mem_filter, Finset.mem_univ, true_and]
        rw [set2_ne _ _ _ _ (fun hc => hk hc.1)]

theorem EffH.jobsMem (f : EffH cfg s s') (h : Inv cfg s) (k : Fin K) (r : Fin n) (j : Job μ) (hj0 : s'.jobs k r = some j) :
    j.task ∈ CallSystem.tasksFor cfg s' k := by
  obtain ⟨l, hl⟩ := f.tasksFor h k
  cases f with
  | same hc hh ht hj => rw [hl, List.mem_append]; left; rw [hj] at hj0; exact h.jobsMem k r j hj0
  | tick d' now hc hh ht hj => rw [hl, List.mem_append]; left; rw [hj] at hj0; exact h.jobsMem k r j hj0
  | finish k' r' t hd hp hc hh ht hj hj' =>
    rw [hl, List.mem_append]; left
    rw [hj'] at hj0
    by_cases hk : k = k' ∧ r = r'
    · obtain ⟨rfl, rfl⟩ := hk
      rw [set2_self] at hj0
      injection hj0 with hj0
      subst hj0
      have := h.jobsMem k r _ hj; exact this
    · rw [set2_ne _ _ _ _ hk] at hj0
      exact h.jobsMem k r j hj0
  | collect d' now x hx hs hc hh ht hj =>
    rcases hj with ⟨ho, hj⟩ | ⟨t, ho, htu, hj⟩
    · rw [hl, List.mem_append]; left; rw [hj] at hj0; exact h.jobsMem k r j hj0
    · by_cases hk : k = x.1 ∧ r = x.2
      · obtain ⟨rfl, rfl⟩ := hk
        rw [hj, set2_self] at hj0
        injection hj0 with hj0
        subst hj0
        rw [tasksFor_snoc h d' _ hh x.1, if_pos hs, ho, List.mem_append]
        right
        simp [runsOf, htu]
      · rw [hj, set2_ne _ _ _ _ hk] at hj0
        rw [hl, List.mem_append]; left; exact h.jobsMem k r j hj0

theorem EffH.jobsCol (f : EffH cfg s s') (h : Inv cfg s) (k : Fin K) (r : Fin n) (j : Job μ) (hj0 : s'.jobs k r = some j) :
    (k, r) ∈ s'.parcels (.collected (cfg.calls k).server) := by
  cases f with
  | same hc hh ht hj => rw [hc]; rw [hj] at hj0; exact h.jobsCol k r j hj0
  | tick d' now hc hh ht hj => rw [hc]; rw [hj] at hj0; exact h.jobsCol k r j hj0
  | finish k' r' t hd hp hc hh ht hj hj' =>
    rw [hc]
    rw [hj'] at hj0
    by_cases hk : k = k' ∧ r = r'
    · obtain ⟨rfl, rfl⟩ := hk
      exact h.jobsCol k r _ hj
    · rw [set2_ne _ _ _ _ hk] at hj0
      exact h.jobsCol k r j hj0
  | collect d' now x hx hs hc hh ht hj =>
    have key : ∀ j', s.jobs k r = some j' → (k, r) ∈ s'.parcels (.collected (cfg.calls k).server) := by
      intro j' hj'
      have := h.jobsCol k r j' hj'
      rw [hc]
      split
      · next hd => rw [← hd]; exact List.mem_append_left _ this
      · exact this
    rcases hj with ⟨ho, hj⟩ | ⟨t, ho, htu, hj⟩
    · rw [hj] at hj0; exact key j hj0
    · by_cases hk : k = x.1 ∧ r = x.2
      · obtain ⟨rfl, rfl⟩ := hk
        rw [hc, if_pos hs]; exact List.mem_append_right _ List.mem_cons_self
      · rw [hj, set2_ne _ _ _ _ hk] at hj0
        exact key j hj0

/-- Which handlers have returned. -/
theorem EffH.done (f : EffH cfg s s') (h : Inv cfg s) (k : Fin K) (r : Fin n) :
    CallSystem.done (s.jobs k r) = true → s'.jobs k r = s.jobs k r := by
  intro hd0
  cases f with
  | same hc hh ht hj => rw [hj]
  | tick d' now hc hh ht hj => rw [hj]
  | finish k' r' t hd hp hc hh ht hj hj' =>
    rw [hj']
    by_cases hk : k = k' ∧ r = r'
    · obtain ⟨rfl, rfl⟩ := hk
      rw [hj] at hd0; cases hd0
    · rw [set2_ne _ _ _ _ hk]
  | collect d' now x hx hs hc hh ht hj =>
    rcases hj with ⟨ho, hj⟩ | ⟨t, ho, htu, hj⟩
    · rw [hj]
    · by_cases hk : k = x.1 ∧ r = x.2
      · obtain ⟨rfl, rfl⟩ := hk
        rw [h.fresh hx] at hd0; cases hd0
      · rw [hj, set2_ne _ _ _ _ hk]

end Resmix.Rrpc.CallSystem
