import Verif.Proofs.CallG
set_option autoImplicit false
/-
What a call has received, and what it returns.
-/
namespace Resmix.Rrpc.CallSystem
open Resmix.Ecc
variable {μ : Type} {K m n : Nat} {cfg : Config μ K m n} {s : State μ K m n}

/-- One response per relay. -/
theorem Inv.relays_nodup (h : Inv cfg s) (hh : Honest cfg) (k : Fin K) (l : ALoc K m n) (hl : ∀ a ∈ s.answers l, a.call = k) :
    ((s.answers l).map (·.relay)).Nodup := by
  rw [List.nodup_iff_count_le_one]
  intro r
  have h1 := cnt_ge (fun a => decide (a.call = k ∧ a.relay = r)) s.answers l
  have h2 := h.counts_le hh k r
  have : ((s.answers l).map (·.relay)).count r = (s.answers l).countP (fun a => decide (a.call = k ∧ a.relay = r)) := by
    unfold List.count
    rw [List.countP_map]
    apply List.countP_congr
    intro a ha
    simp [hl a ha]
  omega

/-- The responses of a call are those of its task. -/
theorem Inv.same_task (h : Inv cfg s) (hh : Honest cfg) {k : Fin K} {r0 : Fin n} {t : CTask μ} {b : Behaviour μ} (hj : s.jobs k r0 = some ⟨t, some b⟩) {resps : Fin n → CallStreamResponse}
    (ho : ∀ res, TaskOutput cfg.S cfg.H cfg.cod (cfg.key (cfg.calls k).server) cfg.C false cfg.net b [] t res ↔ res = .ok (List.ofFn resps))
    {l : ALoc K m n} {a : Ans K n} (ha : a ∈ s.answers l) (hk : a.call = k) : a.msg = resps a.relay := by
  subst hk
  obtain ⟨r1, t', b', resps', hj', -, ho', hm⟩ := h.genuine l a ha
  have := h.one_job hh (k := a.call) (r := r0) (r' := r1) (by rw [hj]; rfl) (by rw [hj']; rfl)
  subst this
  rw [hj] at hj'
  simp only [Option.some.injEq, Job.mk.injEq] at hj'
  obtain ⟨rfl, rfl⟩ := hj'
  have := (ho _).1 ho'
  injection this with this
  rw [hm, List.ofFn_injective this]

/-- The only task of a call whose handler has returned. -/
theorem Inv.the_task (h : Inv cfg s) (hh : Honest cfg) {k : Fin K} {r0 : Fin n} {j : Job μ} (hj : s.jobs k r0 = some j) : tasksFor cfg s k = [j.task] := by
  have h1 := h.jobsMem k r0 j hj
  have h2 := h.one_task hh k
  match hl : tasksFor cfg s k with
  | [] => rw [hl] at h1; cases h1
  | [x] => rw [hl] at h1; rw [List.mem_singleton.1 h1]
  | x :: y :: z => rw [hl] at h2; simp at h2

theorem forall2_map_eq {α β γ : Type} {R : α → β → Prop} {f : α → γ} {g : β → γ} (hR : ∀ a b, R a b → f a = g b) {as : List α} {bs : List β} (h : List.Forall₂ R as bs) :
    as.map f = bs.map g := by
  induction h with
  | nil => rfl
  | cons h _ ih => rw [List.map_cons, List.map_cons, hR _ _ h, ih]

theorem forall2_mem {α β : Type} {R : α → β → Prop} {as : List α} {bs : List β} (h : List.Forall₂ R as bs) {a : α} (ha : a ∈ as) : ∃ b ∈ bs, R a b := by
  induction h with
  | nil => cases ha
  | cons h _ ih =>
    rcases List.mem_cons.1 ha with rfl | ha
    · exact ⟨_, List.mem_cons_self, h⟩
    · obtain ⟨b, hb, hr⟩ := ih ha; exact ⟨b, List.mem_cons_of_mem _ hb, hr⟩

/-- A call waits, or it has returned what its handler made of its arguments. -/
theorem Inv.reply (h : Inv cfg s) (hh : Honest cfg) (k : Fin K) :
    (robustRequest cfg.net ((s.taken k).map Answer.ev) = none ∨
      ∃ r0 t b, s.jobs k r0 = some ⟨t, some b⟩ ∧ b.Proper ∧ tasksFor cfg s k = [t] ∧ Invokes cfg.C t t.method (cfg.uuid k) (cfg.calls k).args ∧
        cfg.lookup (cfg.calls k).server (cfg.calls k).method = .ok t.method ∧
        Returned cfg s k (outcomeOf (b t.method (cfg.uuid k) (cfg.calls k).args))) ∧
    (cfg.net.minimalRelayedParcels ≤ (s.taken k).length → robustRequest cfg.net ((s.taken k).map Answer.ev) ≠ none) ∧
    ((∀ r0 t b, s.jobs k r0 = some ⟨t, some b⟩ → ∃ x, b t.method (cfg.uuid k) (cfg.calls k).args = .ok x) → ((s.taken k).length : Int) < cfg.net.minimalRelayedParcels →
      robustRequest cfg.net ((s.taken k).map Answer.ev) = none) := by
  have hlen := (h.taken k).length_eq
  cases htk : s.answers (.taken k) with
  | nil =>
    rw [htk] at hlen
    have : s.taken k = [] := List.length_eq_zero_iff.1 hlen
    rw [this]
    refine ⟨.inl rfl, fun hmin => ?_, fun _ _ => rfl⟩
    have := hh.min
    simp only [List.length_nil] at hmin
    omega
  | cons a0 rest0 =>
    have ha0 : a0 ∈ s.answers (.taken k) := by rw [htk]; exact List.mem_cons_self
    have hk0 : a0.call = k := h.placeA _ a0 ha0
    obtain ⟨r0, t, b, resps, hj, hp, ho, -⟩ := h.genuine _ a0 ha0
    rw [hk0] at hj ho
    have htask := h.the_task hh hj
    obtain ⟨f, -⟩ := h.taskFacts hh k t (by rw [htask]; exact List.mem_cons_self)
    obtain ⟨rs, h1, h2, h3, h4⟩ := task_resps cfg.S cfg.H cfg.cod (cfg.key (cfg.calls k).server) cfg.net cfg.C hh.code (by rw [hh.servers]; exact hh.small) t
      (cfg.calls k).args f.args f.unsigned b hp
    have hrs : List.ofFn resps = rs := by have := (h1 _).1 ho; injection this
    subst hrs
    have hmsg : ∀ a ∈ s.answers (.taken k), a.msg = resps a.relay := fun a ha => h.same_task hh hj h1 ha (h.placeA _ a ha)
    have hreply := task_reply cfg.S cfg.H cfg.cod (cfg.key (cfg.calls k).server) cfg.net cfg.C hh.code hh.tau (by rw [hh.servers]; exact hh.majority) t
      (cfg.calls k).args b hp (List.ofFn resps) h3 h4 (s.taken k)
      (by
        have e1 : (s.taken k).map (fun a => a.1.response) = (s.answers (.taken k)).map (fun a => some a.msg) :=
          forall2_map_eq (by rintro ans a ⟨cache, rfl⟩; rfl) (h.taken k)
        have e2 : (s.answers (.taken k)).map (fun a => some a.msg) = ((s.answers (.taken k)).map (·.relay)).map (fun r => some (resps r)) := by
          rw [List.map_map]
          apply List.map_congr_left
          intro a ha
          rw [hmsg a ha]; rfl
        have e3 : (List.ofFn resps).map some = (List.finRange n).map (fun r => some (resps r)) := by
          rw [List.ofFn_eq_map, List.map_map]; rfl
        rw [e1, e2, e3]
        apply subperm_map
        exact List.Nodup.subperm (h.relays_nodup hh k _ (fun a ha => h.placeA _ a ha)) (fun r _ => List.mem_finRange r))
      (by
        intro ans hans
        obtain ⟨a, ha, cache, rfl⟩ := forall2_mem (h.taken k) hans
        rfl)
      (by
        intro ans hans c x hc hx
        obtain ⟨a, ha, cache, rfl⟩ := forall2_mem (h.taken k) hans
        refine ⟨cache, ?_⟩
        have hac : a.call = k := h.placeA _ a ha
        simp only [judge, Option.some.injEq] at hc
        subst hc
        simp only [judge, hx, hac]
        rw [(hh.calls k).receiver])
    refine ⟨?_, hreply.2.1, fun hok hlt => hreply.2.2 (by rw [f.uuid]; exact hok r0 t b hj) hlt⟩
    rcases hreply.1 with h5 | h5
    · exact .inl h5
    · refine .inr ⟨r0, t, b, hj, hp, htask, ⟨rfl, f.uuid, f.args⟩, f.method, ?_⟩
      intro r
      have := h5 (if s.cancelled k then [.done] else []) r
      rw [f.uuid] at this
      exact this

end Resmix.Rrpc.CallSystem
