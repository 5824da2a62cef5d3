import Verif.Proofs.CallK
set_option autoImplicit false
/-
Two schedules: one in which every relay records its clients at once, and one in which every relay records them too late.
-/
namespace Resmix.Rrpc.CallSystem
open Resmix.Ecc
variable {μ : Type} {K m n : Nat} {cfg : Config μ K m n} {s s' : State μ K m n} {e : Event μ K m n}

/-- The collectors have not ticked. -/
def NoTick (s : State μ K m n) : Prop := ∀ d now, CEv.tick now ∉ s.history d

theorem NoTick.step (h : NoTick s) (st : Step cfg s e s') (he : ∀ d now, e ≠ .tick d now) : NoTick s' := by
  have key : ∀ d now p, ∀ d' now', CEv.tick now' ∉ Function.update s.history d (s.history d ++ [.parcel now p]) d' := by
    intro d now p d' now'
    by_cases hd : d' = d
    · subst hd
      rw [Function.update_self]
      simp [h d' now']
    · rw [Function.update_of_ne hd]; exact h d' now'
  cases st with
  | tick d now => exact (he d now rfl).elim
  | collect d now x rest tasks' h0 hl hb hc => exact key d now _
  | collectRun d now x rest tasks' t h0 hl hb hc => exact key d now _
  | collectRefuse d now x rest tasks' i er h0 hl hb hc => exact key d now _
  | _ => exact h

theorem NoTick.run {es : List (Event μ K m n)} (r : Run cfg s es s') (h : NoTick s) (he : ∀ d now, .tick d now ∉ es) : NoTick s' := by
  induction r with
  | nil s => exact h
  | @cons s s1 s2 e es st t ih =>
    refine ih (h.step st (fun d now e0 => he d now (by rw [e0]; exact List.mem_cons_self))) (fun d now hm => he d now (List.mem_cons_of_mem _ hm))

/-- It can come to rest calmly. -/
theorem Inv.rest_calm (h : Inv cfg s) (hh : Honest cfg) : ∃ es s', (∀ k, CalmRun cfg k s es s') ∧ (∀ e ∈ es, e.Own ∧ e.Proper) ∧ AtRest cfg s' := by
  induction hw : work s using Nat.strong_induction_on generalizing s with
  | _ w ih =>
    have go : ∀ e s', Step cfg s e s' → e.Own → e.Proper → (∀ k, CalmStep cfg k s e) →
        ∃ es s', (∀ k, CalmRun cfg k s es s') ∧ (∀ e ∈ es, e.Own ∧ e.Proper) ∧ AtRest cfg s' := by
      intro e s' st ho hp hc
      have h1 := h.work_step hh hp st
      rw [if_pos ho] at h1
      obtain ⟨es, s'', r, h2, h3⟩ := ih (work s') (by omega) (h.step hh hp st) rfl
      exact ⟨e :: es, s'', fun k => .cons st (hc k) (r k), by simpa using ⟨⟨ho, hp⟩, h2⟩, h3⟩
    by_cases hs : ∃ r c u, s.storing r c = some u
    · obtain ⟨r, c, u, hs⟩ := hs
      exact go (.store r c) _ (.store s r c u h.alive hs) trivial trivial (fun _ => trivial)
    · push Not at hs
      by_cases hr : AtRest cfg s
      · exact ⟨[], s, fun k => .nil s, by simp, hr⟩
      · unfold AtRest at hr
        push Not at hr
        obtain ⟨e, s', ho, hp, st⟩ := hr
        refine go e s' st ho hp (fun k => ?_)
        cases e with
        | route r => intro a rest hl hk c; exact hs r c _
        | clean r u => exact ho.elim
        | _ => trivial

/-- Nothing recorded, one call. -/
structure Late (k : Fin K) (s : State μ K m n) : Prop where
  pending : ∀ r, s.pending r = []
  only : ∀ j, s.begun j = true → j = k
  past : ∀ r c u, s.storing r c = some u → ∃ l, (k, r) ∈ s.parcels l ∧ CallSystem.past l = true
  routed : ∀ l, CallSystem.routed l = true → s.answers l = []

theorem past_stays (f : EffP cfg s s') {x : Fin K × Fin n} {l : PLoc K m n} (hx : x ∈ s.parcels l) (hp : CallSystem.past l = true) :
    ∃ l', x ∈ s'.parcels l' ∧ CallSystem.past l' = true := by
  cases f with
  | same hp' hb => exact ⟨l, by rw [hp']; exact hx, hp⟩
  | begin k hb hb' hp' =>
    refine ⟨l, ?_, hp⟩
    rw [hp', Function.update_of_ne]
    · exact hx
    · rintro rfl; cases hp
  | move l1 l2 y rest hb hl hp' hpl hne hna hq =>
    by_cases h1 : l = l1
    · subst h1
      rw [hl] at hx
      rcases List.mem_cons.1 hx with rfl | h2
      · exact ⟨l2, by rw [hp', move_to hne.symm]; simp, hq hp⟩
      · exact ⟨l, by rw [hp', move_from hne]; exact h2, hp⟩
    · by_cases h2 : l = l2
      · subst h2
        exact ⟨l, by rw [hp', move_to hne.symm]; exact List.mem_append_left _ hx, hp⟩
      · exact ⟨l, by rw [hp', move_other h1 h2]; exact hx, hp⟩

theorem Late.step {k : Fin K} (g : Late k s) (h : Inv cfg s) (hh : Honest cfg) (ho : e.Own) (he : e.Proper) (hs : ¬ isStore e) (st : Step cfg s e s') : Late k s' := by
  have hP := h.effP hh he st
  refine ⟨?_, ?_, ?_, ?_⟩
  · intro r
    have hg := g.pending
    cases st with
    | store r c u h0 hs' => exact (hs trivial).elim
    | route r' c a rest x h0 hf hl hn hp => rw [hg r'] at hp; cases hp
    | clean r' u h0 => exact ho.elim
    | _ => exact hg r
  · intro j hj
    cases st with
    | begin k' h0 hb => exact ho.elim
    | _ => exact g.only j hj
  · intro r c u hs'
    have key : ∀ u, s.storing r c = some u → ∃ l, (k, r) ∈ s'.parcels l ∧ CallSystem.past l = true := by
      intro u hu
      obtain ⟨l, h1, h2⟩ := g.past r c u hu
      exact past_stays hP h1 h2
    cases st with
    | store r c u h0 hs' => exact (hs trivial).elim
    | forward r' c' x rest d h0 hl hd hr =>
      dsimp only at hs'
      by_cases hc : r = r' ∧ c = c'
      · obtain ⟨rfl, rfl⟩ := hc
        have hm : x ∈ s.parcels (.handling r c) := by rw [hl]; exact List.mem_cons_self
        have h1 := g.only x.1 (h.begun hm)
        have h2 : x.2 = r := (h.placeP _ x hm).2
        refine ⟨.toSend r d, ?_, rfl⟩
        dsimp only
        rw [move_to (by simp)]
        rw [← h1, ← h2]; simp
      · rw [set2_ne _ _ _ _ hc] at hs'; exact key u hs'
    | _ => exact key u hs'
  · intro l hl0
    have hg := g.routed
    have hA := h.effA hh he st
    have hpe := g.pending
    refine empty_of fun a rest0 ha0 => ?_
    have ha : a ∈ s'.answers l := by rw [ha0]; exact List.mem_cons_self
    have key : a ∉ s.answers l := by rw [hg l hl0]; simp
    cases st with
    | refuse d r cache tick x rest resp h0 hl hc =>
      rcases mem_push ha with h1 | ⟨-, h1⟩
      · exact key h1
      · rw [h1] at hl0; cases hl0
    | collectRefuse d now x rest tasks' i er h0 hl hb hc =>
      rcases mem_push ha with h1 | ⟨-, h1⟩
      · exact key h1
      · rw [h1] at hl0; cases hl0
    | finish k' r' hd buf t resps h0 hj ho =>
      dsimp only at ha
      rw [Function.update_of_ne (by rintro rfl; cases hl0)] at ha
      exact key ha
    | moveA l1 l2 b rest h0 hl hn hr =>
      rcases mem_move hl ha with h1 | ⟨-, h1⟩
      · exact key h1
      · subst h1
        have : CallSystem.routed l1 = true := by
          cases l1 <;> simp only [nextA, Option.some.injEq, reduceCtorEq] at hn <;> subst hn <;> first | rfl | cases hl0
        rw [hg l1 this] at hl; cases hl
    | route r' c b rest x h0 hf hl hn hp => rw [hpe r'] at hp; cases hp
    | drop r b rest x h0 hf hl hn hp =>
      rcases mem_move hl ha with h1 | ⟨-, h1⟩
      · exact key h1
      · rw [h1] at hl0; cases hl0
    | answer c r k' b rest h0 hf hl hp => rw [hg (.wireC r c) rfl] at hl; cases hl
    | ignore c r b rest h0 hf hl hp => rw [hg (.wireC r c) rfl] at hl; cases hl
    | take k' cache b rest h0 hw hask hl => rw [hg (.queue k') rfl] at hl; cases hl
    | _ => exact key ha

/-- Without recording anything, everything else comes to rest. -/
theorem Late.rest {k : Fin K} (g : Late k s) (h : Inv cfg s) (hh : Honest cfg) :
    ∃ es s', Run cfg s es s' ∧ (∀ e ∈ es, e.Own ∧ e.Proper) ∧ Late k s' ∧ ∀ e s'', e.Own → e.Proper → ¬ isStore e → ¬ Step cfg s' e s'' := by
  induction hw : work s using Nat.strong_induction_on generalizing s with
  | _ w ih =>
    by_cases hr : ∀ e s'', e.Own → e.Proper → ¬ isStore e → ¬ Step cfg s e s''
    · exact ⟨[], s, .nil s, by simp, g, hr⟩
    · push Not at hr
      obtain ⟨e, s', ho, hp, hs, st⟩ := hr
      have h1 := h.work_step hh hp st
      rw [if_pos ho] at h1
      obtain ⟨es, s'', r, h2, h3⟩ := ih (work s') (by omega) (g.step h hh ho hp hs st) (h.step hh hp st) rfl
      exact ⟨e :: es, s'', .cons st r, by simpa using ⟨⟨ho, hp⟩, h2⟩, h3⟩

theorem dropped_stays {e : Event μ K m n} (st : Step cfg s e s') {r : Fin n} {a : Ans K n} (ha : a ∈ s.answers (.dropped r)) : a ∈ s'.answers (.dropped r) := by
  have mv : ∀ l l' (b : Ans K n) rest, s.answers l = b :: rest → l ≠ .dropped r → a ∈ move s.answers l l' b rest (.dropped r) := by
    intro l l' b rest hl hne
    by_cases h2 : l' = .dropped r
    · subst h2; rw [move_to hne.symm]; exact List.mem_append_left _ ha
    · rw [move_other hne.symm (Ne.symm h2)]; exact ha
  cases st with
  | refuse d r' cache tick x rest resp h0 hl hc => dsimp only [push]; rw [Function.update_of_ne (by simp)]; exact ha
  | collectRefuse d now x rest tasks' i er h0 hl hb hc => dsimp only [push]; rw [Function.update_of_ne (by simp)]; exact ha
  | finish k' r' hd buf t resps h0 hj ho => dsimp only; rw [Function.update_of_ne (by simp)]; exact ha
  | moveA l1 l2 b rest h0 hl hn hr => exact mv _ _ _ _ hl (by rintro rfl; simp [nextA] at hn)
  | route r' c b rest x h0 hf hl hn hp => dsimp only; exact mv _ _ _ _ hl (fun h => by cases h)
  | drop r' b rest x h0 hf hl hn hp => dsimp only; exact mv _ _ _ _ hl (fun h => by cases h)
  | answer c r' k' b rest h0 hf hl hp => dsimp only; exact mv _ _ _ _ hl (fun h => by cases h)
  | ignore c r' b rest h0 hf hl hp => dsimp only; exact mv _ _ _ _ hl (fun h => by cases h)
  | take k' cache b rest h0 hw hask hl => dsimp only; exact mv _ _ _ _ hl (fun h => by cases h)
  | _ => exact ha

theorem dropped_run {es : List (Event μ K m n)} (t : Run cfg s es s') {r : Fin n} {a : Ans K n} (ha : a ∈ s.answers (.dropped r)) : a ∈ s'.answers (.dropped r) := by
  induction t with
  | nil s => exact ha
  | cons st _ ih => exact ih (dropped_stays st ha)

theorem Run.append {s1 s2 s3 : State μ K m n} {es es' : List (Event μ K m n)} (a : Run cfg s1 es s2) (b : Run cfg s2 es' s3) : Run cfg s1 (es ++ es') s3 := by
  induction a with
  | nil s => exact b
  | cons st _ ih => exact .cons st (ih b)

theorem cancelled_stays {e : Event μ K m n} (st : Step cfg s e s') (ho : e.Own) : s'.cancelled = s.cancelled ∧ s'.begun = s.begun := by
  cases st with
  | begin k h0 hb => exact ho.elim
  | cancel k h0 hb => exact ho.elim
  | _ => exact ⟨rfl, rfl⟩

theorem cancelled_run {es : List (Event μ K m n)} (t : Run cfg s es s') (ho : ∀ e ∈ es, e.Own) : s'.cancelled = s.cancelled ∧ s'.begun = s.begun := by
  induction t with
  | nil s => exact ⟨rfl, rfl⟩
  | cons st _ ih =>
    obtain ⟨h1, h2⟩ := cancelled_stays st (ho _ List.mem_cons_self)
    obtain ⟨h3, h4⟩ := ih (fun e he => ho e (List.mem_cons_of_mem _ he))
    exact ⟨h3.trans h1, h4.trans h2⟩

/-- Every call may be overtaken and then waits for ever. -/
theorem overtaken (hh : Honest cfg) (k : Fin K) : ∃ es s, Run cfg init (.begin k :: es) s ∧ (∀ e ∈ es, e.Own ∧ e.Proper) ∧ AtRest cfg s ∧
    s.begun k = true ∧ s.cancelled k = false ∧ (∃ t, tasksFor cfg s k = [t]) ∧ loopResult cfg s k = none := by
  have st0 : Step cfg init (.begin k) _ := .begin init k rfl rfl
  have h0 := (inv_init cfg).step hh (e := .begin k) trivial st0
  generalize hs0 : ({ init with begun := Function.update (init : State μ K m n).begun k true
                                parcels := Function.update (init : State μ K m n).parcels (.ask k) ((List.finRange n).map fun r => (k, r)) } : State μ K m n) = s0 at st0 h0
  have g0 : Late k s0 := by
    subst hs0
    refine ⟨fun r => rfl, ?_, ?_, fun l _ => rfl⟩
    · intro j hj
      by_contra hne
      dsimp only at hj
      rw [Function.update_of_ne hne] at hj; cases hj
    · intro r c u hu; cases hu
  have hb0 : s0.begun k = true := by subst hs0; simp
  have hc0 : s0.cancelled k = false := by subst hs0; rfl
  have ht0 : NoTick s0 := by subst hs0; intro d now; simp [init]
  obtain ⟨es1, s1, r1, o1, g1, hr1⟩ := g0.rest h0 hh
  have h1 := h0.run hh (fun e he => (o1 e he).2) r1
  obtain ⟨c1, b1⟩ := cancelled_run r1 (fun e he => (o1 e he).1)
  have hrest := h1.at_rest' hh hr1 (by
    intro r c u hs
    obtain ⟨l, hl, hp⟩ := g1.past r c u hs
    refine empty_of fun x rest hx => ?_
    have hm : x ∈ s1.parcels (.up c r) := by rw [hx]; exact List.mem_cons_self
    have e1 := g1.only x.1 (h1.begun hm)
    have e2 : x.2 = r := (h1.placeP _ x hm).2
    rw [show x = (k, r) from Prod.ext e1 e2] at hm
    rw [h1.at_one hl hm] at hp; cases hp)
  have hb1 : s1.begun k = true := by rw [b1]; exact hb0
  have noTick : ∀ es : List (Event μ K m n), (∀ e ∈ es, e.Own ∧ e.Proper) → ∀ d now, Event.tick d now ∉ es := fun es ho d now hm => (ho _ hm).1
  have ht1 : NoTick s1 := ht0.run r1 (noTick es1 o1)
  obtain ⟨r0, t, b, hj⟩ := h1.ran hh hrest hb1 (timely_of_no_tick _ _ _ _ (ht1 _))
  -- every response has been ignored
  have hdrop : ∀ r, ∃ a ∈ s1.answers (.dropped r), a.call = k ∧ a.relay = r := by
    intro r
    have hc : 0 < cnt (fun a => decide (a.call = k ∧ a.relay = r)) s1.answers := by
      rw [h1.counts k r]
      exact Finset.card_pos.2 ⟨r0, Finset.mem_filter.2 ⟨Finset.mem_univ _, by rw [hj]; rfl⟩⟩
    obtain ⟨l, a, ha, hp⟩ := cnt_pos _ _ hc
    simp only [decide_eq_true_eq] at hp
    have hnr : CallSystem.routed l = false := by
      cases hr : CallSystem.routed l with
      | false => rfl
      | true => rw [g1.routed l hr] at ha; cases ha
    by_cases c1 : ∃ r', l = .dropped r'
    · obtain ⟨r', rfl⟩ := c1
      have : a.relay = r' := h1.placeA _ a ha
      rw [hp.2] at this
      exact ⟨a, this ▸ ha, hp⟩
    · push Not at c1
      rw [hrest.answers l (by rintro k' rfl; cases hnr) (by rintro k' rfl; cases hnr) c1] at ha; cases ha
  obtain ⟨es2, s2, r2, o2, hr2⟩ := h1.rest hh
  have h2 := h1.run hh (fun e he => (o2 e he).2) r2
  obtain ⟨c2, b2⟩ := cancelled_run r2 (fun e he => (o2 e he).1)
  have hb2 : s2.begun k = true := by rw [b2]; exact hb1
  have ht2 : NoTick s2 := ht1.run r2 (noTick es2 o2)
  obtain ⟨r0', t', b', hj'⟩ := h2.ran hh (h2.at_rest hh hr2) hb2 (timely_of_no_tick _ _ _ _ (ht2 _))
  refine ⟨es1 ++ es2, s2, .cons st0 (r1.append r2), ?_, hr2, hb2, by rw [c2, c1]; exact hc0, ⟨t', h2.the_task hh hj'⟩, ?_⟩
  · intro e he
    rcases List.mem_append.1 he with he | he
    · exact o1 e he
    · exact o2 e he
  · have htk : s2.answers (.taken k) = [] := empty_of fun a rest ha => by
      have hm : a ∈ s2.answers (.taken k) := by rw [ha]; exact List.mem_cons_self
      have hk : a.call = k := h2.placeA _ a hm
      obtain ⟨b, hb, e1, e2⟩ := hdrop a.relay
      have := h2.ans_one hh (dropped_run r2 hb) hm (e1.trans hk.symm) e2
      cases this
    have : s2.taken k = [] := by
      have := (h2.taken k).length_eq
      rw [htk] at this
      exact List.length_eq_zero_iff.1 this
    unfold loopResult
    rw [this, show s2.cancelled k = false by rw [c2, c1]; exact hc0]
    rfl

end Resmix.Rrpc.CallSystem
