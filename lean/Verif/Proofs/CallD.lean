import Verif.Proofs.CallC
set_option autoImplicit false
/-
What one step does to parcels, collectors and jobs.
-/
namespace Resmix.Rrpc.CallSystem
open Resmix.Ecc
variable {μ : Type} {K m n : Nat} {cfg : Config μ K m n} {s s' : State μ K m n} {e : Event μ K m n}

/-- A checked parcel of an honest call is accepted. -/
theorem Inv.accept (h : Inv cfg s) (hh : Honest cfg) {d r : Fin n} {x : Fin K × Fin n} {rest : List (Fin K × Fin n)} (hl : s.parcels (.checking d r) = x :: rest) (cache : Cache) :
    Relay.onParcel cfg.S cfg.H cfg.cod cache false cfg.text r (cfg.parcel x) = .accept := by
  have hp := h.placeP (.checking d r) x (by rw [hl]; exact List.mem_cons_self)
  have := ((hh.parcels x.1).1 x.2).accept cache
  rw [hp.1] at this
  exact hp.1 ▸ this

/-- A collected parcel of an honest call is not refused. -/
theorem Inv.known (h : Inv cfg s) (hh : Honest cfg) {d : Fin n} {x : Fin K × Fin n} {rest : List (Fin K × Fin n)} (hl : s.parcels (.collector d) = x :: rest) :
    ∃ mm, cfg.lookup d (cfg.parcel x).method = .ok mm := by
  have hp : (cfg.calls x.1).server = d := h.placeP (.collector d) x (by rw [hl]; exact List.mem_cons_self)
  obtain ⟨mm, hm⟩ := (hh.calls x.1).method
  refine ⟨mm, ?_⟩
  have := ((hh.parcels x.1).1 x.2).method
  rw [show (cfg.parcel x).method = (cfg.calls x.1).method from this, ← hp]
  exact hm

theorem collectorStep_cases {lk : Str → Go μ} {mn : Int} {ttl : Nat} {tasks : GoMap Str (CTask μ)} {now : Nat} {p : Parcel} (hk : KeysOk tasks) {mm : μ} (hm : lk p.method = .ok mm) :
    (collectorStep mn ttl lk tasks (.parcel now p)).2 = [] ∨
      ∃ t, (collectorStep mn ttl lk tasks (.parcel now p)).2 = [.run t] ∧ t.savedNote.calluuid = p.note.calluuid := by
  simp only [collectorStep, getOrCreateTask, hm]
  cases ht : tasks.lookup p.note.calluuid with
  | some v =>
    simp only
    split
    · left; rfl
    · right; exact ⟨_, rfl, (hk _ v ht : v.savedNote.calluuid = _)⟩
  | none =>
    simp only
    split
    · left; rfl
    · right; exact ⟨_, rfl, rfl⟩

theorem Inv.keys (h : Inv cfg s) (hh : Honest cfg) (d : Fin n) : KeysOk (s.tasks d) := by
  obtain ⟨h1, h2⟩ := hh.min
  obtain ⟨h3, -⟩ := collector_any cfg.net.minimalRelayedParcels.toNat h2 5000000000 (cfg.lookup d) [] (s.history d)
  rw [h.tasks d, ← h1]; exact h3

/-- The relay has passed the parcel on. -/
def past : PLoc K m n → Bool
  | .toSend _ _ => true
  | .down _ _ => true
  | .checking _ _ => true
  | .collector _ => true
  | .collected _ => true
  | _ => false

/-- What a step does to the parcels. -/
inductive EffP (cfg : Config μ K m n) (s s' : State μ K m n) : Prop
  | same (hp : s'.parcels = s.parcels) (hb : s'.begun = s.begun)
  | begin (k : Fin K) (hb : s.begun k = false) (hb' : s'.begun = Function.update s.begun k true)
      (hp : s'.parcels = Function.update s.parcels (.ask k) ((List.finRange n).map fun r => (k, r)))
  | move (l l' : PLoc K m n) (x : Fin K × Fin n) (rest : List (Fin K × Fin n)) (hb : s'.begun = s.begun) (hl : s.parcels l = x :: rest)
      (hp : s'.parcels = move s.parcels l l' x rest) (hpl : CallSystem.placeP cfg l' x) (hne : l ≠ l') (hna : ∀ k, l' ≠ .ask k)
      (hq : past l = true → past l' = true)

theorem Inv.effP (h : Inv cfg s) (hh : Honest cfg) (he : e.Proper) (st : Step cfg s e s') : EffP cfg s s' := by
  cases st with
  | begin k h0 hb => exact .begin k hb rfl rfl
  | register k x rest h0 hl hr =>
    exact .move _ _ _ _ rfl hl rfl (h.placeP (.ask k) x (by rw [hl]; exact List.mem_cons_self)) (by simp) (by simp) (fun hq => by cases hq)
  | moveP l l' x rest h0 hl hn hr =>
    have hx := h.placeP l x (by rw [hl]; exact List.mem_cons_self)
    refine .move l l' x rest rfl hl rfl ?_ ?_ ?_ ?_
    · cases l <;> simp only [nextP, Option.some.injEq, reduceCtorEq] at hn <;> subst hn <;> simp only [CallSystem.placeP] at hx ⊢
      · rw [hx]; simp
      · exact hx
      · exact hx
      · exact hx
      · exact hx
    · rintro rfl
      cases l <;> simp [nextP] at hn
    · intro k hk
      subst hk
      cases l <;> simp [nextP] at hn
    · intro hq
      cases l <;> simp only [nextP, Option.some.injEq, reduceCtorEq] at hn <;> subst hn <;> first | rfl | cases hq
  | forward r c x rest d h0 hl hd hr =>
    have hx := h.placeP _ x (by rw [hl]; exact List.mem_cons_self)
    exact .move _ _ _ _ rfl hl rfl ⟨hx.2, ((hh.forward x d).1 hd).symm⟩ (by simp) (by simp) (fun _ => rfl)
  | store r c u h0 hs => exact .same rfl rfl
  | accept d r cache tick x rest h0 hl hc hr =>
    have hx := h.placeP _ x (by rw [hl]; exact List.mem_cons_self)
    exact .move _ _ _ _ rfl hl rfl hx.2 (by simp) (by simp) (fun _ => rfl)
  | refuse d r cache tick x rest resp h0 hl hc =>
    simp only [Event.Proper] at he
    subst he
    rw [h.accept hh hl] at hc; cases hc
  | checkCrash d r cache tick x rest h0 hl hc =>
    simp only [Event.Proper] at he
    subst he
    rw [h.accept hh hl] at hc; cases hc
  | collect d now x rest tasks' h0 hl hb hc =>
    exact .move _ _ _ _ rfl hl rfl (h.placeP (.collector d) x (by rw [hl]; exact List.mem_cons_self)) (by simp) (by simp) (fun _ => rfl)
  | collectRun d now x rest tasks' t h0 hl hb hc =>
    exact .move _ _ _ _ rfl hl rfl (h.placeP (.collector d) x (by rw [hl]; exact List.mem_cons_self)) (by simp) (by simp) (fun _ => rfl)
  | collectRefuse d now x rest tasks' i er h0 hl hb hc =>
    exact .move _ _ _ _ rfl hl rfl (h.placeP (.collector d) x (by rw [hl]; exact List.mem_cons_self)) (by simp) (by simp) (fun _ => rfl)
  | _ => exact .same rfl rfl

theorem EffP.placeP (f : EffP cfg s s') (h : Inv cfg s) : ∀ l x, x ∈ s'.parcels l → CallSystem.placeP cfg l x := by
  cases f with
  | same hp hb => rw [hp]; exact h.placeP
  | begin k hb hb' hp =>
    intro l x hx
    rw [hp] at hx
    by_cases hl : l = .ask k
    · subst hl
      rw [Function.update_self] at hx
      obtain ⟨r, -, rfl⟩ := List.mem_map.1 hx
      exact rfl
    · rw [Function.update_of_ne hl] at hx; exact h.placeP l x hx
  | move l l' x rest hb hl hp hpl hne hna hq =>
    intro j y hy
    rw [hp] at hy
    rcases mem_move hl hy with h1 | ⟨rfl, rfl⟩
    · exact h.placeP j y h1
    · exact hpl

theorem EffP.once (f : EffP cfg s s') (h : Inv cfg s) : ∀ x, cnt (fun y => decide (y = x)) s'.parcels = if s'.begun x.1 then 1 else 0 := by
  intro x
  cases f with
  | same hp hb => rw [hp, hb]; exact h.once x
  | begin k hb hb' hp =>
    have hold := h.once x
    have hu := pot_update (fun _ y => if decide (y = x) = true then 1 else 0) s.parcels (.ask k) ((List.finRange n).map fun r => (k, r))
    rw [sum_ite_count, sum_ite_count] at hu
    rw [hp, hb']
    have hask : s.parcels (.ask k) = [] := by
      cases hc : s.parcels (.ask k) with
      | nil => rfl
      | cons y l =>
        have hy : y ∈ s.parcels (.ask k) := by rw [hc]; exact List.mem_cons_self
        have h1 := h.begun hy
        have h2 : y.1 = k := h.placeP _ y hy
        rw [h2, hb] at h1; cases h1
    rw [hask] at hu
    have hcnt : ((List.finRange n).map fun r => (k, r)).countP (fun y => decide (y = x)) = if x.1 = k then 1 else 0 := by
      have hnd : ((List.finRange n).map fun r => (k, r)).Nodup := (List.nodup_finRange n).map (fun a b hab => by injection hab)
      have : ((List.finRange n).map fun r => (k, r)).countP (fun y => decide (y = x)) = ((List.finRange n).map fun r => (k, r)).count x := by
        unfold List.count
        congr 1
        funext y
        rw [Bool.eq_iff_iff]; simp
      rw [this]
      split
      · next hx =>
        apply List.count_eq_one_of_mem hnd
        exact List.mem_map.2 ⟨x.2, List.mem_finRange _, by rw [← hx]⟩
      · next hx =>
        apply List.count_eq_zero_of_not_mem
        intro hm
        obtain ⟨r, -, rfl⟩ := List.mem_map.1 hm
        exact hx rfl
    rw [hcnt] at hu
    simp only [List.countP_nil, Nat.add_zero] at hu
    show cnt _ _ = _
    unfold cnt at hold ⊢
    rw [hu, hold]
    by_cases hx : x.1 = k
    · rw [hx, hb, Function.update_self]; simp
    · rw [Function.update_of_ne hx, if_neg hx]; rfl
  | move l l' y rest hb hl hp hpl hne hna hq =>
    rw [hp, hb, cnt_move _ _ _ _ _ _ hl]; exact h.once x

/-- Nothing is sent twice. -/
theorem EffP.asked (f : EffP cfg s s') (h : Inv cfg s) {k : Fin K} {r : Fin n} (ha : CallSystem.asked s k r) : CallSystem.asked s' k r := by
  obtain ⟨a1, a2⟩ := ha
  cases f with
  | same hp hb => exact ⟨by rw [hb]; exact a1, by rw [hp]; exact a2⟩
  | begin k' hb hb' hp =>
    have hk : k ≠ k' := by rintro rfl; rw [hb] at a1; cases a1
    refine ⟨by rw [hb', Function.update_of_ne hk]; exact a1, ?_⟩
    rw [hp, Function.update_of_ne (by simpa using hk)]
    exact a2
  | move l l' y rest hb hl hp hpl hne hna hq =>
    refine ⟨by rw [hb]; exact a1, ?_⟩
    rw [hp]
    intro hm
    rcases mem_move hl hm with h1 | ⟨-, h1⟩
    · exact a2 h1
    · exact hna k h1.symm

/-- What is newly sent. -/
theorem Inv.asked_new (h : Inv cfg s) (hh : Honest cfg) (he : e.Proper) (st : Step cfg s e s') {k : Fin K} {r : Fin n} (ha : CallSystem.asked s' k r) :
    CallSystem.asked s k r ∨ (e = .register k ∧ ∃ rest, s.parcels (.ask k) = (k, r) :: rest) := by
  obtain ⟨a1, a2⟩ := ha
  by_cases hs : CallSystem.asked s k r
  · exact .inl hs
  right
  cases h.effP hh he st with
  | same hp hb => exact absurd ⟨by rw [← hb]; exact a1, by rw [← hp]; exact a2⟩ hs
  | begin k' hb hb' hp =>
    exfalso
    by_cases hk : k = k'
    · subst hk
      rw [hp, Function.update_self] at a2
      exact a2 (List.mem_map.2 ⟨r, List.mem_finRange _, rfl⟩)
    · rw [hb', Function.update_of_ne hk] at a1
      rw [hp, Function.update_of_ne (by simpa using hk)] at a2
      exact hs ⟨a1, a2⟩
  | move l l' y rest hb hl hp hpl hne hna hq =>
    rw [hb] at a1
    have h1 : (k, r) ∈ s.parcels (.ask k) := by
      by_contra hc; exact hs ⟨a1, hc⟩
    rw [hp] at a2
    have h2 : l = .ask k := by
      by_contra hc
      rw [move_other (fun e => hc e.symm) (fun e => hna k e.symm)] at a2
      exact a2 h1
    subst h2
    rw [move_from (hna k).symm] at a2
    rw [hl] at h1
    have h3 : y = (k, r) := by
      rcases List.mem_cons.1 h1 with e | e
      · exact e.symm
      · exact absurd e a2
    subst h3
    refine ⟨?_, rest, hl⟩
    have hpar : s'.parcels (.ask k) ≠ s.parcels (.ask k) := by
      rw [hp, move_from (hna k).symm, hl]; simp
    cases st with
    | register k' x rest' h0 hl' hr =>
      by_cases hk : k' = k
      · rw [hk]
      · exfalso; apply hpar
        dsimp only
        rw [move_other]
        · simpa using fun e => hk e.symm
        · simp
    | begin k' h0 hb' =>
      exfalso
      have hk : k ≠ k' := by rintro rfl; rw [hb'] at a1; cases a1
      apply hpar
      exact Function.update_of_ne (by simpa using hk) _ _
    | moveP l1 l2 x rest' h0 hl' hn hr =>
      exfalso; apply hpar
      exact move_other (by rintro rfl; simp [nextP] at hn) (by rintro rfl; cases l1 <;> simp [nextP] at hn)
    | refuse d r cache tick x rest resp h0 hl' hc =>
      exfalso; apply hpar
      dsimp only
      rw [Function.update_of_ne]
      simp
    | _ =>
      exfalso; apply hpar
      first | rfl | (dsimp only; rw [move_other] <;> simp; done)

end Resmix.Rrpc.CallSystem
