import Verif.Proofs.CallR
set_option autoImplicit false
/-
Calm executions: a relay loses a response only if it passed its parcel on too late.
-/
namespace Resmix.Rrpc.CallSystem
open Resmix.Ecc
variable {μ : Type} {K m n : Nat} {cfg : Config μ K m n} {s s' : State μ K m n} {e : Event μ K m n}

structure Calm (cfg : Config μ K m n) (k : Fin K) (s : State μ K m n) : Prop where
  one : ∀ r c, (s.parcels (.handling r c)).length ≤ 1
  busy : ∀ r c u, s.storing r c = some u → s.parcels (.handling r c) = []
  known : ∀ r l, (k, r) ∈ s.parcels l → past l = true → s.storing r (cfg.calls k).client = some (cfg.uuid k) ∨
    (s.pending r).lookup (cfg.uuid k) = some (cfg.calls k).client ∨ ∃ l a, a ∈ s.answers l ∧ routed l = true ∧ a.call = k ∧ a.relay = r
  late : ∀ r a, a ∈ s.answers (.dropped r) → a.call = k → ∀ t ∈ tasksFor cfg s k, cfg.parcel (k, r) ∉ t.parcels

theorem calm_init (cfg : Config μ K m n) (k : Fin K) : Calm cfg k init := by
  refine ⟨?_, ?_, ?_, ?_⟩ <;> intros <;> simp_all [init]

theorem handling_step (h1 : ∀ r c, (s.parcels (.handling r c)).length ≤ 1) (h2 : ∀ r c u, s.storing r c = some u → s.parcels (.handling r c) = [])
    (st : Step cfg s e s') : (∀ r c, (s'.parcels (.handling r c)).length ≤ 1) ∧ (∀ r c u, s'.storing r c = some u → s'.parcels (.handling r c) = []) := by
  cases st with
  | begin k h0 hb =>
    dsimp only
    refine ⟨fun r c => ?_, fun r c u hs => ?_⟩ <;> rw [Function.update_of_ne (by simp)]
    · exact h1 r c
    · exact h2 r c u hs
  | register k x rest h0 hl hr =>
    dsimp only
    refine ⟨fun r c => ?_, fun r c u hs => ?_⟩ <;> rw [move_other (by simp) (by simp)]
    · exact h1 r c
    · exact h2 r c u hs
  | moveP l l' x rest h0 hl hn hr =>
    dsimp only
    have hne : ∀ r c, l ≠ .handling r c := by rintro r c rfl; simp [nextP] at hn
    refine ⟨fun r c => ?_, fun r c u hs => ?_⟩
    · by_cases hc : l' = .handling r c
      · subst hc
        rw [move_to (hne r c).symm, hr.1]; simp
      · rw [move_other (hne r c).symm (fun e => hc e.symm)]; exact h1 r c
    · by_cases hc : l' = .handling r c
      · subst hc
        have := hr.2
        rw [hs] at this; cases this
      · rw [move_other (hne r c).symm (fun e => hc e.symm)]; exact h2 r c u hs
  | forward r c x rest d h0 hl hd hr =>
    dsimp only
    have hrest : rest = [] := by
      have := h1 r c
      rw [hl] at this
      simpa using this
    refine ⟨fun r' c' => ?_, fun r' c' u hs => ?_⟩
    · by_cases hc : r' = r ∧ c' = c
      · rw [hc.1, hc.2, move_from (by simp), hrest]; simp
      · rw [move_other (fun e => hc (by simpa using e)) (by simp)]; exact h1 r' c'
    · by_cases hc : r' = r ∧ c' = c
      · rw [hc.1, hc.2, move_from (by simp), hrest]
      · rw [set2_ne _ _ _ _ hc] at hs
        rw [move_other (fun e => hc (by simpa using e)) (by simp)]; exact h2 r' c' u hs
  | store r c u h0 hs =>
    dsimp only
    refine ⟨h1, fun r' c' u' hs' => ?_⟩
    by_cases hc : r' = r ∧ c' = c
    · rw [hc.1, hc.2, set2_self] at hs'; cases hs'
    · rw [set2_ne _ _ _ _ hc] at hs'; exact h2 r' c' u' hs'
  | refuse d r cache tick x rest resp h0 hl hc =>
    dsimp only
    refine ⟨fun r c => ?_, fun r c u hs => ?_⟩ <;> rw [Function.update_of_ne (by simp)]
    · exact h1 r c
    · exact h2 r c u hs
  | accept d r cache tick x rest h0 hl hc hr =>
    dsimp only
    refine ⟨fun r c => ?_, fun r c u hs => ?_⟩ <;> rw [move_other (by simp) (by simp)]
    · exact h1 r c
    · exact h2 r c u hs
  | collect d now x rest tasks' h0 hl hb hc =>
    dsimp only
    refine ⟨fun r c => ?_, fun r c u hs => ?_⟩ <;> rw [move_other (by simp) (by simp)]
    · exact h1 r c
    · exact h2 r c u hs
  | collectRun d now x rest tasks' t h0 hl hb hc =>
    dsimp only
    refine ⟨fun r c => ?_, fun r c u hs => ?_⟩ <;> rw [move_other (by simp) (by simp)]
    · exact h1 r c
    · exact h2 r c u hs
  | collectRefuse d now x rest tasks' i er h0 hl hb hc =>
    dsimp only
    refine ⟨fun r c => ?_, fun r c u hs => ?_⟩ <;> rw [move_other (by simp) (by simp)]
    · exact h1 r c
    · exact h2 r c u hs
  | _ => exact ⟨h1, h2⟩

/-- Parcels that are newly passed on are passed on by `forward`. -/
theorem past_new (h : Inv cfg s) (hh : Honest cfg) (he : e.Proper) (st : Step cfg s e s') {x : Fin K × Fin n} {l : PLoc K m n} (hx : x ∈ s'.parcels l) (hp : past l = true) :
    (∃ l0, x ∈ s.parcels l0 ∧ past l0 = true) ∨ (∃ r c rest, e = .forward r c ∧ s.parcels (.handling r c) = x :: rest) := by
  cases st with
  | begin k h0 hb =>
    dsimp only at hx
    rw [Function.update_of_ne (by rintro rfl; cases hp)] at hx
    exact .inl ⟨l, hx, hp⟩
  | register k y rest h0 hl hr =>
    rcases mem_move hl hx with h1 | ⟨rfl, rfl⟩
    · exact .inl ⟨l, h1, hp⟩
    · cases hp
  | moveP l1 l2 y rest h0 hl hn hr =>
    rcases mem_move hl hx with h1 | ⟨rfl, rfl⟩
    · exact .inl ⟨l, h1, hp⟩
    · refine .inl ⟨l1, by rw [hl]; exact List.mem_cons_self, ?_⟩
      cases l1 <;> simp only [nextP, Option.some.injEq, reduceCtorEq] at hn <;> subst hn <;> first | rfl | cases hp
  | forward r c y rest d h0 hl hd hr =>
    rcases mem_move hl hx with h1 | ⟨rfl, rfl⟩
    · exact .inl ⟨l, h1, hp⟩
    · exact .inr ⟨r, c, rest, rfl, hl⟩
  | accept d r cache tick y rest h0 hl hc hr =>
    rcases mem_move hl hx with h1 | ⟨rfl, rfl⟩
    · exact .inl ⟨l, h1, hp⟩
    · exact .inl ⟨_, by rw [hl]; exact List.mem_cons_self, rfl⟩
  | refuse d r cache tick y rest resp h0 hl hc =>
    simp only [Event.Proper] at he
    subst he
    rw [h.accept hh hl] at hc; cases hc
  | collect d now y rest tasks' h0 hl hb hc =>
    rcases mem_move hl hx with h1 | ⟨rfl, rfl⟩
    · exact .inl ⟨l, h1, hp⟩
    · exact .inl ⟨_, by rw [hl]; exact List.mem_cons_self, rfl⟩
  | collectRun d now y rest tasks' t h0 hl hb hc =>
    rcases mem_move hl hx with h1 | ⟨rfl, rfl⟩
    · exact .inl ⟨l, h1, hp⟩
    · exact .inl ⟨_, by rw [hl]; exact List.mem_cons_self, rfl⟩
  | collectRefuse d now y rest tasks' i er h0 hl hb hc =>
    rcases mem_move hl hx with h1 | ⟨rfl, rfl⟩
    · exact .inl ⟨l, h1, hp⟩
    · exact .inl ⟨_, by rw [hl]; exact List.mem_cons_self, rfl⟩
  | _ => exact .inl ⟨l, hx, hp⟩

theorem Calm.known_step {k : Fin K} (c : Calm cfg k s) (h : Inv cfg s) (hh : Honest cfg) (he : e.Proper) (st : Step cfg s e s') (hc : CalmStep cfg k s e)
    (r : Fin n) (l : PLoc K m n) (hx : (k, r) ∈ s'.parcels l) (hp : past l = true) :
    s'.storing r (cfg.calls k).client = some (cfg.uuid k) ∨ (s'.pending r).lookup (cfg.uuid k) = some (cfg.calls k).client ∨
      ∃ l a, a ∈ s'.answers l ∧ routed l = true ∧ a.call = k ∧ a.relay = r := by
  have hA := h.effA hh he st
  rcases past_new h hh he st hx hp with ⟨l0, hx0, hp0⟩ | ⟨r', c', rest, rfl, hl⟩
  · rcases c.known r l0 hx0 hp0 with h1 | h1 | ⟨l1, a, ha, hr, hk, hrl⟩
    · -- storing
      cases st with
      | forward r' c' x rest d h0 hl hd hr =>
        left
        dsimp only
        by_cases hcc : r = r' ∧ (cfg.calls k).client = c'
        · have := c.busy r _ _ h1
          rw [hcc.1, hcc.2, hl] at this; cases this
        · rw [set2_ne _ _ _ _ hcc]; exact h1
      | store r' c' u h0 hs =>
        dsimp only
        by_cases hcc : r = r' ∧ (cfg.calls k).client = c'
        · right; left
          obtain ⟨rfl, rfl⟩ := hcc
          rw [h1] at hs
          injection hs with hs
          rw [Function.update_self, hs, GoMap.lookup_insert_self]
        · left; rw [set2_ne _ _ _ _ hcc]; exact h1
      | _ => exact .inl h1
    · -- pending
      right
      cases st with
      | store r' c' u h0 hs =>
        left
        dsimp only
        by_cases hcc : r = r'
        · subst hcc
          rw [Function.update_self]
          by_cases hu : cfg.uuid k = u
          · obtain ⟨k', e1, e2, -⟩ := h.storing r c' u hs
            have := hh.uuids _ _ (hu.trans e1)
            subst this
            rw [hu, GoMap.lookup_insert_self, e2]
          · rw [GoMap.lookup_insert_ne _ _ hu]; exact h1
        · rw [Function.update_of_ne hcc]; exact h1
      | route r' c' a rest x h0 hf hl hn hp' =>
        dsimp only
        by_cases hcc : r = r'
        · subst hcc
          rw [Function.update_self]
          have hm : a ∈ s.answers (.incoming r) := by rw [hl]; exact List.mem_cons_self
          obtain ⟨y, hy, hu⟩ := h.note hh hm
          rw [hn] at hy
          injection hy with hy
          subst hy
          by_cases hk : a.call = k
          · right
            refine ⟨.routing r c', a, ?_, rfl, hk, h.placeA _ a hm⟩
            rw [move_to (by simp)]; simp
          · left
            rw [GoMap.lookup_erase_ne]
            · exact h1
            · rw [hu]; exact fun e => hk (hh.uuids _ _ e).symm
        · left; rw [Function.update_of_ne hcc]; exact h1
      | clean r' u h0 =>
        left
        dsimp only
        by_cases hcc : r = r'
        · subst hcc
          rw [Function.update_self, GoMap.lookup_erase_ne _ (fun e => hc e.symm)]; exact h1
        · rw [Function.update_of_ne hcc]; exact h1
      | _ => exact .inl h1
    · right; right
      obtain ⟨l', h2, h3⟩ := hA.stays_routed ha hr
      exact ⟨l', a, h2, h3, hk, hrl⟩
  · left
    have hm : (k, r) ∈ s.parcels (.handling r' c') := by rw [hl]; exact List.mem_cons_self
    obtain ⟨e1, e2⟩ := h.placeP _ _ hm
    cases st with
    | forward _ _ x rest' d h0 hl' hd hr =>
      rw [hl] at hl'
      injection hl' with hx' _
      subst hx'
      dsimp only
      simp only at e1 e2
      rw [← e1, ← e2, set2_self]
      rw [show (cfg.parcel (k, r)).note.calluuid = cfg.uuid k from ((hh.parcels k).1 r).uuid]

theorem Calm.late_step {k : Fin K} (c : Calm cfg k s) (h : Inv cfg s) (hh : Honest cfg) (he : e.Proper) (st : Step cfg s e s') (hc : CalmStep cfg k s e)
    (r : Fin n) (a : Ans K n) (ha : a ∈ s'.answers (.dropped r)) (hk : a.call = k) : ∀ t ∈ tasksFor cfg s' k, cfg.parcel (k, r) ∉ t.parcels := by
  have h' := h.step hh he st
  have hH := h.effH hh he st
  have same : ∀ l, a ∈ s.answers l → tasksFor cfg s' k = tasksFor cfg s k := by
    intro l hal
    obtain ⟨r0, t, b, resps, hj, -⟩ := h.genuine l a hal
    rw [hk] at hj
    have h1 := h.the_task hh hj
    obtain ⟨rest, h2⟩ := hH.tasksFor h k
    have h3 := h'.one_task hh k
    rw [h2, h1] at h3
    have : rest = [] := by
      simp only [List.length_append, List.length_cons, List.length_nil] at h3
      exact List.length_eq_zero_iff.1 (by omega)
    rw [h2, this, List.append_nil]
  by_cases hold : a ∈ s.answers (.dropped r)
  · rw [same _ hold]
    exact c.late r a hold hk
  · have hnew : ∃ rest x, e = .route r ∧ s.answers (.incoming r) = a :: rest ∧ a.msg.note = some x ∧ (s.pending r).lookup x.calluuid = none := by
      cases st with
      | refuse d r cache tick x rest resp h0 hl hc' =>
        simp only [Event.Proper] at he
        subst he
        rw [h.accept hh hl] at hc'; cases hc'
      | collectRefuse d now x rest tasks' i er h0 hl hb hc' =>
        obtain ⟨mm, hm⟩ := h.known hh hl
        rcases collectorStep_cases (mn := cfg.net.minimalRelayedParcels) (ttl := 5000000000) (now := now) (h.keys hh d) hm with h1 | ⟨t', h1, h2⟩
        · rw [hc'] at h1; simp at h1
        · rw [hc'] at h1; simp at h1
      | finish k' r' hd buf t resps h0 hj ho =>
        dsimp only at ha; rw [Function.update_of_ne (by simp)] at ha; exact absurd ha hold
      | moveA l l' b rest h0 hl hn hr =>
        dsimp only at ha
        rcases mem_move hl ha with h1 | ⟨-, h1⟩
        · exact absurd h1 hold
        · subst h1; cases l <;> simp [nextA] at hn
      | route r' c' b rest x h0 hf hl hn hp =>
        dsimp only at ha
        rcases mem_move hl ha with h1 | ⟨-, h1⟩
        · exact absurd h1 hold
        · cases h1
      | drop r' b rest x h0 hf hl hn hp =>
        dsimp only at ha
        rcases mem_move hl ha with h1 | ⟨h0, h1⟩
        · exact absurd h1 hold
        · injection h1 with h1
          subst h1 h0
          exact ⟨rest, x, rfl, hl, hn, hp⟩
      | answer c r k' b rest h0 hf hl hp =>
        dsimp only at ha
        rcases mem_move hl ha with h1 | ⟨-, h1⟩
        · exact absurd h1 hold
        · cases h1
      | ignore c r b rest h0 hf hl hp =>
        dsimp only at ha
        rcases mem_move hl ha with h1 | ⟨-, h1⟩
        · exact absurd h1 hold
        · cases h1
      | take k' cache b rest h0 hw hask hl =>
        dsimp only at ha
        rcases mem_move hl ha with h1 | ⟨-, h1⟩
        · exact absurd h1 hold
        · cases h1
      | _ => exact absurd ha hold
    obtain ⟨rest, x, rfl, hl, hn, hp⟩ := hnew
    have hm : a ∈ s.answers (.incoming r) := by rw [hl]; exact List.mem_cons_self
    rw [same _ hm]
    obtain ⟨y, hy, hu⟩ := h.note hh hm
    rw [hn] at hy; injection hy with hy; subst hy
    rw [hu, hk] at hp
    intro t ht hin
    obtain ⟨-, hsub⟩ := h.taskFacts hh k t ht
    have hin' := hsub.subset hin
    rw [h.callParcels hh] at hin'
    obtain ⟨z, hz, hze⟩ := List.mem_map.1 hin'
    have := hh.parcel_inj hze
    subst this
    have hcol := (List.mem_filter.1 hz).1
    rcases c.known r _ hcol rfl with h1 | h1 | ⟨l, b, hb, hr, hbk, hbr⟩
    · exact hc a rest hl hk _ h1
    · rw [hp] at h1; cases h1
    · have := h.ans_one hh hb hm (hbk.trans hk.symm) (hbr.trans (h.placeA _ a hm : a.relay = r).symm)
      rw [this] at hr; cases hr

theorem Calm.step {k : Fin K} (c : Calm cfg k s) (h : Inv cfg s) (hh : Honest cfg) (he : e.Proper) (st : Step cfg s e s') (hc : CalmStep cfg k s e) : Calm cfg k s' :=
  ⟨(handling_step c.one c.busy st).1, (handling_step c.one c.busy st).2, c.known_step h hh he st hc, c.late_step h hh he st hc⟩

theorem CalmRun.run {k : Fin K} {es : List (Event μ K m n)} (r : CalmRun cfg k s es s') : Run cfg s es s' := by
  induction r with
  | nil s => exact .nil s
  | cons st _ _ ih => exact .cons st ih

theorem Calm.run {k : Fin K} {es : List (Event μ K m n)} (r : CalmRun cfg k s es s') (c : Calm cfg k s) (h : Inv cfg s) (hh : Honest cfg) (hes : ∀ e ∈ es, e.Proper) : Calm cfg k s' := by
  induction r with
  | nil s => exact c
  | cons st hc _ ih =>
    have he := hes _ List.mem_cons_self
    exact ih (c.step h hh he st hc) (h.step hh he st) (fun e he => hes e (List.mem_cons_of_mem _ he))

/-- Few responses are ignored. -/
theorem Calm.few {k : Fin K} (c : Calm cfg k s) (h : Inv cfg s) (hh : Honest cfg) {t : CTask μ} (ht : t ∈ tasksFor cfg s k) : ((ignoredBy s k).card : Int) ≤ cfg.net.maxErrors := by
  obtain ⟨f, -⟩ := h.taskFacts hh k t ht
  have hdisj : Disjoint (ignoredBy s k) (Finset.univ.filter fun r => cfg.parcel (k, r) ∈ t.parcels) := by
    rw [Finset.disjoint_left]
    intro r hr1 hr2
    obtain ⟨a, ha, hk⟩ := (Finset.mem_filter.1 hr1).2
    exact c.late r a ha hk t ht (Finset.mem_filter.1 hr2).2
  have h1 : (ignoredBy s k).card + (Finset.univ.filter fun r => cfg.parcel (k, r) ∈ t.parcels).card ≤ n := by
    rw [← Finset.card_union_of_disjoint hdisj]
    have := Finset.card_le_univ (ignoredBy s k ∪ Finset.univ.filter fun r => cfg.parcel (k, r) ∈ t.parcels)
    rwa [Fintype.card_fin] at this
  have hnd : t.parcels.Nodup := by
    obtain ⟨l, hl1, hl2⟩ := f.sub
    refine hl1.nodup_iff.1 (hl2.nodup ?_)
    rw [List.nodup_ofFn]
    intro r r' e
    have := hh.parcel_inj (cfg := cfg) (x := (k, r)) (y := (k, r')) e
    injection this
  have h2 : t.parcels.length ≤ (Finset.univ.filter fun r => cfg.parcel (k, r) ∈ t.parcels).card := by
    rw [← List.toFinset_card_of_nodup hnd]
    have : t.parcels.toFinset ⊆ (Finset.univ.filter fun r => cfg.parcel (k, r) ∈ t.parcels).image (fun r => cfg.parcel (k, r)) := by
      intro p hp
      have hp := List.mem_toFinset.1 hp
      obtain ⟨r, hr⟩ := (List.mem_ofFn' _ _).1 (f.sub.subset hp)
      exact Finset.mem_image.2 ⟨r, Finset.mem_filter.2 ⟨Finset.mem_univ _, by rw [← hr] at hp; exact hp⟩, hr⟩
    exact (Finset.card_le_card this).trans Finset.card_image_le
  have hmin : cfg.net.minimalRelayedParcels = cfg.net.serverAddresses.length - (cfg.net.tau - 1) := rfl
  have hmax : cfg.net.maxErrors = cfg.net.tau - 1 := rfl
  rw [hh.servers] at hmin
  have := f.len
  omega

end Resmix.Rrpc.CallSystem
