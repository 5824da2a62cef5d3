import Verif.Proofs.CallS
set_option autoImplicit false
/-
Relays that are silent from before a call, and relays that fall silent during it.
-/
namespace Resmix.Rrpc.CallSystem
open Resmix.Ecc
variable {μ : Type} {K m n : Nat} {cfg : Config μ K m n} {s s' : State μ K m n} {e : Event μ K m n}

/-- The relays in `D` have not passed on their parcels of call `k`. -/
def Unpassed (k : Fin K) (D : Finset (Fin n)) (s : State μ K m n) : Prop := ∀ r ∈ D, ∀ l, (k, r) ∈ s.parcels l → past l = false

theorem Unpassed.step {k : Fin K} {D : Finset (Fin n)} (g : Unpassed k D s) (h : Inv cfg s) (hh : Honest cfg) (he : e.Proper) (st : Step cfg s e s') (hd : e.NotBy D) : Unpassed k D s' := by
  intro r hr l hx
  cases hp : past l with
  | false => rfl
  | true =>
    rcases past_new h hh he st hx hp with ⟨l0, h1, h2⟩ | ⟨r', c, rest, rfl, hl⟩
    · rw [g r hr l0 h1] at h2; cases h2
    · have hm : (k, r) ∈ s.parcels (.handling r' c) := by rw [hl]; exact List.mem_cons_self
      have : r = r' := (h.placeP _ _ hm).2
      subst this
      exact (hd r rfl hr).elim

theorem Unpassed.run {k : Fin K} {D : Finset (Fin n)} {es : List (Event μ K m n)} (g : Unpassed k D s) (h : Inv cfg s) (hh : Honest cfg) (hes : ∀ e ∈ es, e.Proper) (r : Run cfg s es s')
    (hd : ∀ e ∈ es, e.NotBy D) : Unpassed k D s' := by
  induction r with
  | nil s => exact g
  | cons st _ ih =>
    exact ih (g.step h hh (hes _ List.mem_cons_self) st (hd _ List.mem_cons_self)) (h.step hh (hes _ List.mem_cons_self) st)
      (fun e he => hes e (List.mem_cons_of_mem _ he)) (fun e he => hd e (List.mem_cons_of_mem _ he))

theorem unpassed_of_unbegun (h : Inv cfg s) {k : Fin K} (hb : s.begun k = false) (D : Finset (Fin n)) : Unpassed k D s := by
  intro r _ l hx
  have := h.begun hx
  rw [hb] at this; cases this

/-- Relays that ignored the response or did not pass the parcel on are few. -/
theorem Calm.few_but {k : Fin K} (c : Calm cfg k s) (h : Inv cfg s) (hh : Honest cfg) {D : Finset (Fin n)} (hD : Unpassed k D s) {t : CTask μ} (ht : t ∈ tasksFor cfg s k) :
    ((D ∪ ignoredBy s k).card : Int) ≤ cfg.net.maxErrors := by
  obtain ⟨f, hsub⟩ := h.taskFacts hh k t ht
  have hdisj : Disjoint (D ∪ ignoredBy s k) (Finset.univ.filter fun r => cfg.parcel (k, r) ∈ t.parcels) := by
    rw [Finset.disjoint_left]
    intro r hr1 hr2
    rcases Finset.mem_union.1 hr1 with hr1 | hr1
    · have hin' := hsub.subset (Finset.mem_filter.1 hr2).2
      rw [h.callParcels hh] at hin'
      obtain ⟨z, hz, hze⟩ := List.mem_map.1 hin'
      have := hh.parcel_inj hze
      subst this
      have := hD r hr1 _ (List.mem_filter.1 hz).1
      cases this
    · obtain ⟨a, ha, hk⟩ := (Finset.mem_filter.1 hr1).2
      exact c.late r a ha hk t ht (Finset.mem_filter.1 hr2).2
  have h1 : (D ∪ ignoredBy s k).card + (Finset.univ.filter fun r => cfg.parcel (k, r) ∈ t.parcels).card ≤ n := by
    rw [← Finset.card_union_of_disjoint hdisj]
    have := Finset.card_le_univ ((D ∪ ignoredBy s k) ∪ Finset.univ.filter fun r => cfg.parcel (k, r) ∈ t.parcels)
    rwa [Fintype.card_fin] at this
  have hnd : t.parcels.Nodup := by
    obtain ⟨l, hl1, hl2⟩ := f.sub
    refine hl1.nodup_iff.1 (hl2.nodup ?_)
    rw [List.nodup_ofFn]
    intro r r' e
    have := hh.parcel_inj (cfg := cfg) (x := (k, r)) (y := (k, r')) e
    injection this
  have h2 : t.parcels.length ≤ (Finset.univ.filter fun r => cfg.parcel (k, r) ∈ t.parcels).card := by
    rw [← List.toFinset_card_of_nodup hnd]
    have : t.parcels.toFinset ⊆ (Finset.univ.filter fun r => cfg.parcel (k, r) ∈ t.parcels).image (fun r => cfg.parcel (k, r)) := by
      intro p hp
      have hp := List.mem_toFinset.1 hp
      obtain ⟨r, hr⟩ := (List.mem_ofFn' _ _).1 (f.sub.subset hp)
      exact Finset.mem_image.2 ⟨r, Finset.mem_filter.2 ⟨Finset.mem_univ _, by rw [← hr] at hp; exact hp⟩, hr⟩
    exact (Finset.card_le_card this).trans Finset.card_image_le
  have hmin : cfg.net.minimalRelayedParcels = cfg.net.serverAddresses.length - (cfg.net.tau - 1) := rfl
  have hmax : cfg.net.maxErrors = cfg.net.tau - 1 := rfl
  rw [hh.servers] at hmin
  have := f.len
  omega

/-- Calmly to rest with certain steps only, keeping what these steps keep. -/
theorem Inv.rest_calm_but (h : Inv cfg s) (hh : Honest cfg) (P : Event μ K m n → Prop) (G : State μ K m n → Prop) (g : G s)
    (hG : ∀ s e s', Inv cfg s → G s → e.Own → e.Proper → P e → Step cfg s e s' → G s')
    (hP : ∀ s r c u, G s → P (.route r) → s.storing r c = some u → P (.store r c)) :
    ∃ es s', (∀ k, CalmRun cfg k s es s') ∧ (∀ e ∈ es, e.Own ∧ e.Proper ∧ P e) ∧ G s' ∧ ∀ e s'', e.Own → e.Proper → P e → ¬ Step cfg s' e s'' := by
  induction hw : work s using Nat.strong_induction_on generalizing s with
  | _ w ih =>
    have go : ∀ e s', Step cfg s e s' → e.Own → e.Proper → P e → (∀ k, CalmStep cfg k s e) →
        ∃ es s', (∀ k, CalmRun cfg k s es s') ∧ (∀ e ∈ es, e.Own ∧ e.Proper ∧ P e) ∧ G s' ∧ ∀ e s'', e.Own → e.Proper → P e → ¬ Step cfg s' e s'' := by
      intro e s' st ho hp hPe hc
      have h1 := h.work_step hh hp st
      rw [if_pos ho] at h1
      obtain ⟨es, s'', r, h2, h3⟩ := ih (work s') (by omega) (h.step hh hp st) (hG s e s' h g ho hp hPe st) rfl
      exact ⟨e :: es, s'', fun k => .cons st (hc k) (r k), by simpa using ⟨⟨ho, hp, hPe⟩, h2⟩, h3⟩
    by_cases hs : ∃ r c u, s.storing r c = some u ∧ P (.store r c)
    · obtain ⟨r, c, u, hs, hp⟩ := hs
      exact go (.store r c) _ (.store s r c u h.alive hs) trivial trivial hp (fun _ => trivial)
    · push Not at hs
      by_cases hr : ∀ e s'', e.Own → e.Proper → P e → ¬ Step cfg s e s''
      · exact ⟨[], s, fun k => .nil s, by simp, g, hr⟩
      · push Not at hr
        obtain ⟨e, s', ho, hp, hPe, st⟩ := hr
        refine go e s' st ho hp hPe (fun k => ?_)
        cases e with
        | route r => intro a rest hl hk c hst; exact hs r c _ hst (hP s r c _ g hPe hst)
        | clean r u => exact ho.elim
        | _ => trivial

/-- How responses change. -/
theorem answers_new (h : Inv cfg s) (hh : Honest cfg) (he : e.Proper) (st : Step cfg s e s') {l : ALoc K m n} {a : Ans K n} (ha : a ∈ s'.answers l) (hl : routed l = true) :
    (∃ l0, a ∈ s.answers l0 ∧ routed l0 = true) ∨ (∃ r c rest, e = .route r ∧ s.answers (.incoming r) = a :: rest ∧ (s.pending r).lookup (cfg.uuid a.call) = some c) := by
  cases st with
  | refuse d r cache tick x rest resp h0 hl' hc =>
    rcases mem_push ha with h1 | ⟨-, h1⟩
    · exact .inl ⟨l, h1, hl⟩
    · rw [h1] at hl; cases hl
  | collectRefuse d now x rest tasks' i er h0 hl' hb hc =>
    rcases mem_push ha with h1 | ⟨-, h1⟩
    · exact .inl ⟨l, h1, hl⟩
    · rw [h1] at hl; cases hl
  | finish k' r' hd buf t resps h0 hj ho =>
    dsimp only at ha
    rw [Function.update_of_ne (by rintro rfl; cases hl)] at ha
    exact .inl ⟨l, ha, hl⟩
  | moveA l1 l2 b rest h0 hl' hn hr =>
    rcases mem_move hl' ha with h1 | ⟨rfl, h1⟩
    · exact .inl ⟨l, h1, hl⟩
    · subst h1
      refine .inl ⟨l1, by rw [hl']; exact List.mem_cons_self, ?_⟩
      cases l1 <;> simp only [nextA, Option.some.injEq, reduceCtorEq] at hn <;> subst hn <;> first | rfl | cases hl
  | route r' c b rest x h0 hf hl' hn hp =>
    rcases mem_move hl' ha with h1 | ⟨rfl, h1⟩
    · exact .inl ⟨l, h1, hl⟩
    · have hm : a ∈ s.answers (.incoming r') := by rw [hl']; exact List.mem_cons_self
      obtain ⟨y, hy, hu⟩ := h.note hh hm
      rw [hn] at hy; injection hy with hy; subst hy
      exact .inr ⟨r', c, rest, rfl, hl', by rw [← hu]; exact hp⟩
  | drop r b rest x h0 hf hl' hn hp =>
    rcases mem_move hl' ha with h1 | ⟨-, h1⟩
    · exact .inl ⟨l, h1, hl⟩
    · rw [h1] at hl; cases hl
  | answer c r k' b rest h0 hf hl' hp =>
    rcases mem_move hl' ha with h1 | ⟨rfl, h1⟩
    · exact .inl ⟨l, h1, hl⟩
    · exact .inl ⟨.wireC r c, by rw [hl']; exact List.mem_cons_self, rfl⟩
  | ignore c r b rest h0 hf hl' hp =>
    rcases mem_move hl' ha with h1 | ⟨-, h1⟩
    · exact .inl ⟨l, h1, hl⟩
    · rw [h1] at hl; cases hl
  | take k' cache b rest h0 hw hask hl' =>
    rcases mem_move hl' ha with h1 | ⟨rfl, h1⟩
    · exact .inl ⟨l, h1, hl⟩
    · exact .inl ⟨.queue k', by rw [hl']; exact List.mem_cons_self, rfl⟩
  | _ => exact .inl ⟨l, ha, hl⟩

/-- Nothing for the relays in `D` has been routed, methods return nothing, nothing was cancelled, ticked or begun but call `k`. -/
structure Stuck (k : Fin K) (D : Finset (Fin n)) (s : State μ K m n) : Prop where
  begun : s.begun = Function.update (fun _ => false) k true
  cancelled : s.cancelled = fun _ => false
  ticks : NoTick s
  routed : ∀ l a, a ∈ s.answers l → routed l = true → a.relay ∉ D
  quiet : ∀ j r t b, s.jobs j r = some ⟨t, some b⟩ → b = CallSystem.quiet

theorem Stuck.step {k : Fin K} {A D : Finset (Fin n)} (g : Stuck k D s) (h : Inv cfg s) (hh : Honest cfg) (ho : e.Own) (he : e.Proper) (ha : Allowed A D e) (st : Step cfg s e s') : Stuck k D s' := by
  obtain ⟨h1, h2⟩ := cancelled_stays st ho
  refine ⟨h2.trans g.begun, h1.trans g.cancelled, g.ticks.step st (by rintro d now rfl; exact ho), ?_, ?_⟩
  · intro l a hal hl
    rcases answers_new h hh he st hal hl with ⟨l0, h3, h4⟩ | ⟨r, c, rest, rfl, h3, -⟩
    · exact g.routed l0 a h3 h4
    · have : a.relay = r := h.placeA (.incoming r) a (by rw [h3]; exact List.mem_cons_self)
      rw [this]; exact ha
  · intro j r t b hj
    have hg := g.quiet
    cases st with
    | collectRun d now x rest tasks' t' h0 hl hb hc =>
      dsimp only at hj
      by_cases hk : j = x.1 ∧ r = x.2
      · rw [hk.1, hk.2, set2_self] at hj; simp at hj
      · rw [set2_ne _ _ _ _ hk] at hj; exact hg j r t b hj
    | finish k' r' hd buf t' resps h0 hj' ho' =>
      dsimp only at hj
      by_cases hk : j = k' ∧ r = r'
      · rw [hk.1, hk.2, set2_self] at hj
        simp only [Option.some.injEq, Job.mk.injEq] at hj
        rw [← hj.2]; exact ha
      · rw [set2_ne _ _ _ _ hk] at hj; exact hg j r t b hj
    | _ => exact hg j r t b hj

/-- Relay `q` has recorded nothing and routed nothing. -/
structure Slow (q : Fin n) (s : State μ K m n) : Prop where
  pending : s.pending q = []
  storing : ∀ c, s.storing q c = none
  routed : ∀ l a, a ∈ s.answers l → routed l = true → a.relay ≠ q

theorem Slow.step {q : Fin n} {D : Finset (Fin n)} (g : Slow q s) (h : Inv cfg s) (hh : Honest cfg) (ho : e.Own) (he : e.Proper) (ha : Allowed {q} D e) (st : Step cfg s e s') : Slow q s' := by
  refine ⟨?_, ?_, ?_⟩
  · have hg := g.pending
    cases st with
    | store r c u h0 hs =>
      dsimp only
      rw [Function.update_of_ne]
      · exact hg
      · rintro rfl; rw [g.storing c] at hs; cases hs
    | route r c a rest x h0 hf hl hn hp =>
      dsimp only
      rw [Function.update_of_ne]
      · exact hg
      · rintro rfl; rw [hg] at hp; cases hp
    | clean r u h0 => exact ho.elim
    | _ => exact hg
  · intro c
    have hg := g.storing
    cases st with
    | forward r c' x rest d h0 hl hd hr =>
      dsimp only
      have hne : r ≠ q := by
        have : r ∉ ({q} : Finset (Fin n)) := ha
        simpa using this
      rw [set2_ne _ _ _ _ (fun h => hne h.1.symm)]; exact hg c
    | store r c' u h0 hs =>
      dsimp only
      by_cases hc : q = r ∧ c = c'
      · rw [hc.1, hc.2, set2_self]
      · rw [set2_ne _ _ _ _ hc]; exact hg c
    | _ => exact hg c
  · intro l a hal hl
    rcases answers_new h hh he st hal hl with ⟨l0, h3, h4⟩ | ⟨r, c, rest, rfl, h3, h4⟩
    · exact g.routed l0 a h3 h4
    · have : a.relay = r := h.placeA (.incoming r) a (by rw [h3]; exact List.mem_cons_self)
      rintro e1
      rw [this] at e1
      rw [e1, g.pending] at h4; cases h4

theorem Stuck.few {k : Fin K} {D : Finset (Fin n)} (g : Stuck k D s) (cfg : Config μ K m n) : FewCalls cfg s := by
  have key : ∀ p : Fin K → Prop, [DecidablePred p] → (Finset.univ.filter fun j => s.begun j = true ∧ p j).card ≤ 1 := by
    intro p _
    refine Finset.card_le_one.2 ?_
    intro a ha b hb
    have e1 : ∀ j, s.begun j = true → j = k := by
      intro j hj
      by_contra hne
      rw [g.begun, Function.update_of_ne hne] at hj; cases hj
    rw [e1 a (Finset.mem_filter.1 ha).2.1, e1 b (Finset.mem_filter.1 hb).2.1]
  exact ⟨fun c => (key _).trans (by decide), fun d => (key _).trans (by decide)⟩

theorem CalmRun.app {k : Fin K} {s1 s2 s3 : State μ K m n} {es es' : List (Event μ K m n)} (a : CalmRun cfg k s1 es s2) (b : CalmRun cfg k s2 es' s3) :
    CalmRun cfg k s1 (es ++ es') s3 := by
  induction a with
  | nil s => exact b
  | cons st hc _ ih => exact .cons st hc (ih b)

/-- Relays that fall silent during a call stop it. -/
theorem silenced (hh : Honest cfg) (k : Fin K) (D : Finset (Fin n)) (hD : (D.card : Int) = cfg.net.maxErrors) (hD1 : D.Nonempty) :
    ∃ es s1 es' s, CalmRun cfg k init (.begin k :: es) s1 ∧ CalmRun cfg k s1 es' s ∧ (∀ e ∈ es ++ es', e.Own ∧ e.Proper) ∧ (∀ e ∈ es', e.NotBy D) ∧ AtRestBut cfg D s ∧
      FewCalls cfg s ∧ s.begun k = true ∧ s.cancelled k = false ∧ (∃ t, tasksFor cfg s k = [t]) ∧ loopResult cfg s k = none := by
  have hmin : cfg.net.minimalRelayedParcels = cfg.net.serverAddresses.length - (cfg.net.tau - 1) := rfl
  have hmax : cfg.net.maxErrors = cfg.net.tau - 1 := rfl
  rw [hh.servers] at hmin
  have hminpos := hh.min
  have hDn : D.card < n := by omega
  obtain ⟨q, hq⟩ : ∃ q, q ∉ D := by
    by_contra hcon
    push Not at hcon
    have : D = Finset.univ := Finset.eq_univ_iff_forall.2 hcon
    rw [this, Finset.card_univ, Fintype.card_fin] at hDn
    omega
  have st0 : Step cfg init (.begin k) _ := .begin init k rfl rfl
  have h0 := (inv_init cfg).step hh (e := .begin k) trivial st0
  generalize hs0 : ({ init with begun := Function.update (init : State μ K m n).begun k true
                                parcels := Function.update (init : State μ K m n).parcels (.ask k) ((List.finRange n).map fun r => (k, r)) } : State μ K m n) = s0 at st0 h0
  have g0 : Stuck k D s0 := by
    subst hs0
    refine ⟨rfl, rfl, ?_, ?_, ?_⟩
    · intro d now; simp [init]
    · intro l a ha; cases ha
    · intro j r t b hj; cases hj
  have q0 : Slow q s0 := by
    subst hs0
    refine ⟨rfl, fun _ => rfl, ?_⟩
    intro l a ha; cases ha
  -- first everybody but the slow relay passes the parcels on, and the relays in `D` do not route
  obtain ⟨es1, s1, r1, o1, ⟨g1, q1⟩, hr1⟩ := h0.rest_calm_but hh (Allowed {q} D) (fun s => Stuck k D s ∧ Slow q s) ⟨g0, q0⟩
    (fun s e s' h g ho hp ha st => ⟨g.1.step h hh ho hp ha st, g.2.step h hh ho hp ha st⟩)
    (fun s r c u g _ hs => by
      show r ∉ ({q} : Finset (Fin n))
      rw [Finset.mem_singleton]
      rintro rfl
      rw [g.2.storing c] at hs; cases hs)
  have h1 := h0.run hh (fun e he => (o1 e he).2.1) (r1 k).run
  have rest1 := h1.rest_but hh (g1.few cfg) {q} D hr1
  have hb : ∀ s : State μ K m n, Stuck k D s → s.begun k = true := fun s g => by rw [g.begun, Function.update_self]
  obtain ⟨r0, t, b, hj⟩ := h1.ran_but hh rest1 (by
      have := Finset.card_pos.2 hD1
      rw [Finset.card_singleton]; omega) (hb s1 g1) (timely_of_no_tick _ _ _ _ (g1.ticks _))
  have hdrop : ∃ a ∈ s1.answers (.dropped q), a.call = k ∧ a.relay = q := by
    have hc : 0 < cnt (fun a => decide (a.call = k ∧ a.relay = q)) s1.answers := by
      rw [h1.counts k q]
      exact Finset.card_pos.2 ⟨r0, Finset.mem_filter.2 ⟨Finset.mem_univ _, by rw [hj]; rfl⟩⟩
    obtain ⟨l, a, ha, hp⟩ := cnt_pos _ _ hc
    simp only [decide_eq_true_eq] at hp
    have hnr : ∀ l', l = l' → CallSystem.routed l' = false := by
      rintro l' rfl
      cases hr : CallSystem.routed l with
      | false => rfl
      | true => exact (q1.routed l a ha hr hp.2).elim
    rcases rest1.answers l a ha (by rw [hp.2]; exact hq) with ⟨k', rfl⟩ | ⟨k', rfl⟩ | ⟨r', rfl⟩
    · have := hnr _ rfl; cases this
    · have := hnr _ rfl; cases this
    · have : a.relay = r' := h1.placeA _ a ha
      exact ⟨a, by rw [← hp.2, this]; exact ha, hp⟩
  -- then the relays in `D` fall silent
  obtain ⟨es2, s2, r2, o2, g2, hr2⟩ := h1.rest_calm_but hh (Allowed D D) (Stuck k D) g1 (fun s e s' h g ho hp ha st => g.step h hh ho hp ha st) (fun s r c u g hr _ => hr)
  have h2 := h1.run hh (fun e he => (o2 e he).2.1) (r2 k).run
  have rest2 := h2.rest_but hh (g2.few cfg) D D hr2
  obtain ⟨r0', t', b', hj'⟩ := h2.ran_but hh rest2 hD.le (hb s2 g2) (timely_of_no_tick _ _ _ _ (g2.ticks _))
  refine ⟨es1, s1, es2, s2, .cons st0 trivial (r1 k), r2 k, ?_, fun e he => notBy_of_allowed (o2 e he).2.2 (o2 e he).1, ?_, g2.few cfg, hb s2 g2, by rw [g2.cancelled], ⟨t', h2.the_task hh hj'⟩, ?_⟩
  · intro e he
    rcases List.mem_append.1 he with he | he
    · exact ⟨(o1 e he).1, (o1 e he).2.1⟩
    · exact ⟨(o2 e he).1, (o2 e he).2.1⟩
  · intro e s3 ho hp hn st
    by_cases hfin : ∃ k' r' hd buf, e = .finish k' r' hd buf
    · obtain ⟨k', r', hd, buf, rfl⟩ := hfin
      cases st with
      | finish _ _ _ _ t0 resps h0 hj0 ho0 => exact rest2.jobs k' r' t0 hj0
      | finishCrash _ _ _ _ t0 h0 hj0 ho0 => exact rest2.jobs k' r' t0 hj0
    · refine hr2 e s3 ho hp ?_ st
      cases e with
      | finish k' r' hd buf => exact (hfin ⟨k', r', hd, buf, rfl⟩).elim
      | moveP l => cases l <;> first | exact trivial | exact hn _ rfl
      | moveA l => cases l <;> first | exact trivial | exact hn _ rfl
      | _ => first | exact trivial | exact hn _ rfl
  · have hlt : ((s2.taken k).length : Int) < cfg.net.minimalRelayedParcels := by
      obtain ⟨a0, ha0, e1, e2⟩ := hdrop
      have ha0' := dropped_run (r2 k).run ha0
      have hnd := h2.relays_nodup hh k (.taken k) (fun a ha => h2.placeA _ a ha)
      have hsub : ((s2.answers (.taken k)).map (·.relay)).toFinset ⊆ (insert q D)ᶜ := by
        intro r hr
        rw [List.mem_toFinset] at hr
        obtain ⟨a, ha, rfl⟩ := List.mem_map.1 hr
        rw [Finset.mem_compl, Finset.mem_insert]
        rintro (h3 | h3)
        · have := h2.ans_one hh ha0' ha (e1.trans (h2.placeA (.taken k) a ha : a.call = k).symm) (e2.trans h3.symm)
          cases this
        · exact g2.routed _ a ha rfl h3
      have h3 := Finset.card_le_card hsub
      rw [List.toFinset_card_of_nodup hnd, List.length_map, ← (h2.taken k).length_eq, Finset.card_compl, Finset.card_insert_of_notMem hq, Fintype.card_fin] at h3
      omega
    have := (h2.reply hh k).2.2 (by
      intro r3 t3 b3 hj3
      rw [g2.quiet _ _ _ _ hj3]
      exact ⟨[], rfl⟩) hlt
    unfold loopResult
    rw [g2.cancelled]
    simpa using this

end Resmix.Rrpc.CallSystem
