import Verif.Proofs.CallF
set_option autoImplicit false
/-
The invariants hold in every reachable state.
-/
namespace Resmix.Rrpc.CallSystem
open Resmix.Ecc
variable {μ : Type} {K m n : Nat} {cfg : Config μ K m n} {s s' : State μ K m n} {e : Event μ K m n}

theorem Inv.live_step (h : Inv cfg s) (hh : Honest cfg) (he : e.Proper) (st : Step cfg s e s') (k : Fin K) (r : Fin n) (hask : CallSystem.asked s' k r) :
    (s'.live (cfg.calls k).client r).lookup (cfg.uuid k) = some k ∨ ∃ l a, a ∈ s'.answers l ∧ got l = true ∧ a.call = k ∧ a.relay = r := by
  have hA := h.effA hh he st
  rcases h.asked_new hh he st hask with hold | ⟨rfl, rest0, hl0⟩
  · rcases h.live k r hold with h1 | ⟨l, a, ha, hg, hc, hr⟩
    · cases st with
      | register k' x rest h0 hl hr =>
        left
        dsimp only
        by_cases hc : (cfg.calls k).client = (cfg.calls k').client ∧ r = x.2
        · rw [hc.1, hc.2, set2_self]
          rw [hc.1, hc.2] at h1
          by_cases hu : (cfg.parcel x).note.calluuid = cfg.uuid k
          · have hx : x.1 = k' := h.placeP (.ask k') x (by rw [hl]; exact List.mem_cons_self)
            have hux := ((hh.parcels x.1).1 x.2).uuid
            rw [show cfg.parcel (x.1, x.2) = cfg.parcel x from rfl, hu] at hux
            have := hh.uuids _ _ hux
            rw [hu, GoMap.lookup_insert_self, ← hx, ← this]
          · rw [GoMap.lookup_insert_ne _ _ (fun e => hu e.symm)]; exact h1
        · rw [set2_ne _ _ _ _ hc]; exact h1
      | answer c r' k' a rest h0 hf hl hp =>
        dsimp only
        have hm : a ∈ s.answers (.wireC r' c) := by rw [hl]; exact List.mem_cons_self
        have hpl := h.placeA _ a hm
        obtain ⟨y, hy, hu⟩ := h.note hh hm
        by_cases hc : (cfg.calls k).client = c ∧ r = r'
        · by_cases hk : a.call = k
          · right
            refine ⟨.recv c r' k', a, ?_, rfl, hk, by rw [hpl.1, hc.2]⟩
            rw [move_to (by simp)]; simp
          · left
            rw [hc.1, hc.2, set2_self]
            rw [hc.1, hc.2] at h1
            rw [GoMap.lookup_erase_ne]
            · exact h1
            · rw [hy]
              simp only [Option.map_some, Option.getD_some, hu]
              exact fun e => hk (hh.uuids _ _ e).symm
        · left
          rw [set2_ne _ _ _ _ hc]; exact h1
      | _ => exact .inl h1
    · right
      obtain ⟨l', h2, h3⟩ := hA.got ha hg
      exact ⟨l', a, h2, h3, hc, hr⟩
  · left
    cases st with
    | register k' x rest h0 hl hr =>
      rw [hl] at hl0
      injection hl0 with hx _
      subst hx
      dsimp only
      rw [set2_self, show (cfg.parcel (k, r)).note.calluuid = cfg.uuid k from ((hh.parcels k).1 r).uuid, GoMap.lookup_insert_self]

theorem lookup_of_insert {κ ν : Type} [DecidableEq κ] {g : GoMap κ ν} {k k' : κ} {v v' : ν} (h : (g.insert k v).lookup k' = some v') : (k' = k ∧ v' = v) ∨ g.lookup k' = some v' := by
  by_cases hk : k' = k
  · subst hk; rw [GoMap.lookup_insert_self] at h; injection h with h; exact .inl ⟨rfl, h.symm⟩
  · rw [GoMap.lookup_insert_ne _ _ hk] at h; exact .inr h

theorem lookup_of_erase {κ ν : Type} [DecidableEq κ] {g : GoMap κ ν} {k k' : κ} {v' : ν} (h : (g.erase k).lookup k' = some v') : g.lookup k' = some v' := by
  by_cases hk : k' = k
  · subst hk; rw [GoMap.lookup_erase_self] at h; cases h
  · rw [GoMap.lookup_erase_ne _ hk] at h; exact h

theorem Inv.lives_step (h : Inv cfg s) (hh : Honest cfg) (st : Step cfg s e s') (c : Fin m) (r : Fin n) (u : Str) (k : Fin K)
    (hl0 : (s'.live c r).lookup u = some k) : u = cfg.uuid k := by
  cases st with
  | register k' x rest h0 hl hr =>
    dsimp only at hl0
    by_cases hc : c = (cfg.calls k').client ∧ r = x.2
    · rw [hc.1, hc.2, set2_self] at hl0
      rcases lookup_of_insert hl0 with ⟨h1, h2⟩ | h1
      · have hx : x.1 = k' := h.placeP (.ask k') x (by rw [hl]; exact List.mem_cons_self)
        rw [h1, h2, ← hx]
        exact ((hh.parcels x.1).1 x.2).uuid
      · exact h.lives _ _ _ _ h1
    · rw [set2_ne _ _ _ _ hc] at hl0; exact h.lives _ _ _ _ hl0
  | answer c' r' k' a rest h0 hf hl hp =>
    dsimp only at hl0
    by_cases hc : c = c' ∧ r = r'
    · rw [hc.1, hc.2, set2_self] at hl0
      exact h.lives _ _ _ _ (lookup_of_erase hl0)
    · rw [set2_ne _ _ _ _ hc] at hl0; exact h.lives _ _ _ _ hl0
  | _ => exact h.lives _ _ _ _ hl0

theorem Inv.storing_step (h : Inv cfg s) (hh : Honest cfg) (he : e.Proper) (st : Step cfg s e s') (r : Fin n) (c : Fin m) (u : Str)
    (hs0 : s'.storing r c = some u) : ∃ k, u = cfg.uuid k ∧ (cfg.calls k).client = c ∧ CallSystem.asked s' k r := by
  have hP := h.effP hh he st
  have key : ∀ u, s.storing r c = some u → ∃ k, u = cfg.uuid k ∧ (cfg.calls k).client = c ∧ CallSystem.asked s' k r := by
    intro u hs
    obtain ⟨k, a1, a2, a3⟩ := h.storing r c u hs
    exact ⟨k, a1, a2, hP.asked h a3⟩
  cases st with
  | forward r' c' x rest d h0 hl hd hr =>
    dsimp only at hs0
    by_cases hc : r = r' ∧ c = c'
    · rw [hc.1, hc.2, set2_self] at hs0
      have hm : x ∈ s.parcels (.handling r' c') := by rw [hl]; exact List.mem_cons_self
      have hx := h.placeP _ x hm
      injection hs0 with hs0
      refine ⟨x.1, ?_, hx.1.trans hc.2.symm, ?_⟩
      · rw [← hs0]; exact ((hh.parcels x.1).1 x.2).uuid
      · have := hP.asked h (h.asked hm (by simp))
        rw [hc.1, ← hx.2]; exact this
    · rw [set2_ne _ _ _ _ hc] at hs0; exact key u hs0
  | store r' c' u' h0 hs =>
    dsimp only at hs0
    by_cases hc : r = r' ∧ c = c'
    · rw [hc.1, hc.2, set2_self] at hs0; cases hs0
    · rw [set2_ne _ _ _ _ hc] at hs0; exact key u hs0
  | _ => exact key u hs0

theorem Inv.pending_step (h : Inv cfg s) (hh : Honest cfg) (he : e.Proper) (st : Step cfg s e s') (r : Fin n) (u : Str) (c : Fin m)
    (hs0 : (s'.pending r).lookup u = some c) : ∃ k, u = cfg.uuid k ∧ (cfg.calls k).client = c ∧ CallSystem.asked s' k r := by
  have hP := h.effP hh he st
  have key : (s.pending r).lookup u = some c → ∃ k, u = cfg.uuid k ∧ (cfg.calls k).client = c ∧ CallSystem.asked s' k r := by
    intro hs
    obtain ⟨k, a1, a2, a3⟩ := h.pending r u c hs
    exact ⟨k, a1, a2, hP.asked h a3⟩
  cases st with
  | store r' c' u' h0 hs =>
    dsimp only at hs0
    by_cases hc : r = r'
    · subst hc
      rw [Function.update_self] at hs0
      rcases lookup_of_insert hs0 with ⟨h1, h2⟩ | h1
      · subst h1 h2
        obtain ⟨k, a1, a2, a3⟩ := h.storing r c u hs
        exact ⟨k, a1, a2, hP.asked h a3⟩
      · exact key h1
    · rw [Function.update_of_ne hc] at hs0; exact key hs0
  | route r' c' a rest x h0 hf hl hn hp =>
    dsimp only at hs0
    by_cases hc : r = r'
    · subst hc
      rw [Function.update_self] at hs0
      exact key (lookup_of_erase hs0)
    · rw [Function.update_of_ne hc] at hs0; exact key hs0
  | clean r' u' h0 =>
    dsimp only at hs0
    by_cases hc : r = r'
    · subst hc
      rw [Function.update_self] at hs0
      exact key (lookup_of_erase hs0)
    · rw [Function.update_of_ne hc] at hs0; exact key hs0
  | _ => exact key hs0

theorem forall2_snoc {α β : Type} {R : α → β → Prop} {as : List α} {bs : List β} {a : α} {b : β} (h : List.Forall₂ R as bs) (h1 : R a b) :
    List.Forall₂ R (as ++ [a]) (bs ++ [b]) := by
  induction h with
  | nil => exact .cons h1 .nil
  | cons hx _ ih => exact .cons hx ih

theorem Inv.taken_step (h : Inv cfg s) (hh : Honest cfg) (he : e.Proper) (st : Step cfg s e s') (k : Fin K) :
    List.Forall₂ (fun ans a => ∃ cache, ans = judge cfg cache a) (s'.taken k) (s'.answers (.taken k)) := by
  have hold := h.taken k
  cases st with
  | refuse d r cache tick x rest resp h0 hl hc =>
    simp only [Event.Proper] at he
    subst he
    rw [h.accept hh hl] at hc; cases hc
  | collectRefuse d now x rest tasks' i er h0 hl hb hc =>
    obtain ⟨mm, hm⟩ := h.known hh hl
    rcases collectorStep_cases (mn := cfg.net.minimalRelayedParcels) (ttl := 5000000000) (now := now) (h.keys hh d) hm with h1 | ⟨t', h1, h2⟩
    · rw [hc] at h1; simp at h1
    · rw [hc] at h1; simp at h1
  | finish k' r hd buf t resps h0 hj ho =>
    dsimp only; rw [Function.update_of_ne (by simp)]; exact hold
  | moveA l l' a rest h0 hl hn hr =>
    dsimp only
    rw [move_other]
    · exact hold
    · rintro rfl; simp [nextA] at hn
    · rintro rfl; cases l <;> simp [nextA] at hn
  | route r c a rest x h0 hf hl hn hp => dsimp only; rw [move_other (by simp) (by simp)]; exact hold
  | drop r a rest x h0 hf hl hn hp => dsimp only; rw [move_other (by simp) (by simp)]; exact hold
  | answer c r k' a rest h0 hf hl hp => dsimp only; rw [move_other (by simp) (by simp)]; exact hold
  | ignore c r a rest h0 hf hl hp => dsimp only; rw [move_other (by simp) (by simp)]; exact hold
  | take k' cache a rest h0 hw hask hl =>
    dsimp only
    by_cases hk : k = k'
    · subst hk
      rw [Function.update_self, move_to (by simp)]
      exact forall2_snoc hold ⟨cache, rfl⟩
    · rw [Function.update_of_ne hk, move_other (by simp) (by simpa using hk)]; exact hold
  | _ => exact hold

theorem Inv.step (h : Inv cfg s) (hh : Honest cfg) (he : e.Proper) (st : Step cfg s e s') : Inv cfg s' := by
  have hP := h.effP hh he st
  have hH := h.effH hh he st
  have hA := h.effA hh he st
  exact
    { alive := h.alive' hh he st
      placeP := hP.placeP h
      once := hP.once h
      hist := hH.hist h
      tasks := hH.tasks h
      jobsLen := hH.jobsLen h hh
      jobsMem := hH.jobsMem h
      jobsCol := hH.jobsCol h
      placeA := hA.placeA h
      genuine := hA.genuine hH h
      counts := hA.counts h hh
      live := h.live_step hh he st
      lives := h.lives_step hh st
      storing := h.storing_step hh he st
      pending := h.pending_step hh he st
      routed := hA.routed hP h
      taken := h.taken_step hh he st }

theorem Inv.run {es : List (Event μ K m n)} (h : Inv cfg s) (hh : Honest cfg) (hes : ∀ e ∈ es, e.Proper) (r : Run cfg s es s') : Inv cfg s' := by
  induction r with
  | nil s => exact h
  | cons st t ih => exact ih (h.step hh (hes _ List.mem_cons_self) st) (fun e he => hes e (List.mem_cons_of_mem _ he))

theorem reachable_inv {es : List (Event μ K m n)} (hh : Honest cfg) (hes : ∀ e ∈ es, e.Proper) (r : Run cfg init es s) : Inv cfg s :=
  (inv_init cfg).run hh hes r

end Resmix.Rrpc.CallSystem
