import Verif.Proofs.CallI
set_option autoImplicit false
/-
Every step of the goroutines brings the system closer to rest.
-/
namespace Resmix.Rrpc.CallSystem
open Resmix.Ecc
variable {μ : Type} {K m n : Nat} {cfg : Config μ K m n} {s s' : State μ K m n} {e : Event μ K m n}

section
variable {A B V : Type} [DecidableEq A] [DecidableEq B] [Fintype A] [Fintype B]

def sum2 (w : V → Nat) (f : A → B → V) : Nat := ∑ a, ∑ b, w (f a b)

theorem sum_update {A : Type} [DecidableEq A] [Fintype A] {V : Type} (w : V → Nat) (f : A → V) (a : A) (v : V) :
    ∑ x, w (Function.update f a v x) + w (f a) = ∑ x, w (f x) + w v := by
  rw [← Finset.add_sum_erase Finset.univ _ (Finset.mem_univ a), ← Finset.add_sum_erase Finset.univ (fun x => w (f x)) (Finset.mem_univ a)]
  have : ∑ x ∈ Finset.univ.erase a, w (Function.update f a v x) = ∑ x ∈ Finset.univ.erase a, w (f x) := by
    apply Finset.sum_congr rfl
    intro x hx
    rw [Function.update_of_ne (Finset.ne_of_mem_erase hx)]
  simp only [Function.update_self]
  omega

theorem sum2_set2 (w : V → Nat) (f : A → B → V) (a : A) (b : B) (v : V) : sum2 w (set2 f a b v) + w (f a b) = sum2 w f + w v := by
  unfold sum2 set2
  have h1 := sum_update (fun g : B → V => ∑ b, w (g b)) f a (Function.update (f a) b v)
  have h2 := sum_update w (f a) b v
  omega
end

def wP (n : Nat) : PLoc K m n → Fin K × Fin n → Nat
  | .ask _, _ => 10 * n + 11
  | .sending _, _ => 10 * n + 10
  | .requests _ _, _ => 10 * n + 9
  | .up _ _, _ => 10 * n + 8
  | .handling _ _, _ => 10 * n + 7
  | .toSend _ _, _ => 10 * n + 5
  | .down _ _, _ => 10 * n + 4
  | .checking _ _, _ => 10 * n + 3
  | .collector _, _ => 10 * n + 2
  | .collected _, _ => 0

def wA : ALoc K m n → Ans K n → Nat
  | .proc _ _, _ => 10
  | .refusing _ _, _ => 10
  | .refusingC _, _ => 10
  | .back _ _, _ => 9
  | .wire _ _, _ => 8
  | .holding _ _, _ => 7
  | .incoming _, _ => 6
  | .routing _ _, _ => 5
  | .resps _ _, _ => 4
  | .wireC _ _, _ => 3
  | .recv _ _ _, _ => 2
  | .queue _, _ => 1
  | .taken _, _ => 0
  | .dropped _, _ => 0
  | .ignored _ _, _ => 0

def wS : Option Str → Nat
  | none => 0
  | some _ => 1

def wJ (n : Nat) : Option (Job μ) → Nat
  | some ⟨_, none⟩ => 10 * n + 1
  | _ => 0

def wB (n : Nat) (b : Bool) : Nat := if b then 0 else n * (10 * n + 11)

/-- The work that is left. -/
def work (s : State μ K m n) : Nat :=
  ∑ k, wB n (s.begun k) + pot (wP n) s.parcels + sum2 wS s.storing + sum2 (wJ n) s.jobs + pot wA s.answers

instance : DecidablePred (Event.Own (μ := μ) (K := K) (m := m) (n := n)) := fun e => by
  cases e <;> unfold Event.Own <;> infer_instance

theorem work_init : work (init : State μ K m n) = K * (n * (10 * n + 11)) := by
  simp [work, init, pot, sum2, wS, wJ, wB]

theorem sum_const_map {α : Type} (l : List α) (w : α → Nat) (c : Nat) (h : ∀ a ∈ l, w a = c) : (l.map w).sum = l.length * c := by
  induction l with
  | nil => simp
  | cons a l ih => rw [List.map_cons, List.sum_cons, h a List.mem_cons_self, ih (fun b hb => h b (List.mem_cons_of_mem _ hb)), List.length_cons, Nat.succ_mul]; omega

theorem Inv.work_step (h : Inv cfg s) (hh : Honest cfg) (he : e.Proper) (st : Step cfg s e s') :
    work s' + (if e.Own then 1 else 0) ≤ work s := by
  cases st with
  | begin k h0 hb =>
    have hask : s.parcels (.ask k) = [] := by
      cases hc : s.parcels (.ask k) with
      | nil => rfl
      | cons y l =>
        have hy : y ∈ s.parcels (.ask k) := by rw [hc]; exact List.mem_cons_self
        have h1 := h.begun hy
        have h2 : y.1 = k := h.placeP _ y hy
        rw [h2, hb] at h1; cases h1
    have h1 := pot_update (wP n) s.parcels (.ask k) ((List.finRange n).map fun r => (k, r))
    have h2 := sum_update (wB n) s.begun k true
    rw [hask, sum_const_map ((List.finRange n).map fun r => (k, r)) (wP n (.ask k)) (10 * n + 11) (fun _ _ => rfl), List.length_map, List.length_finRange] at h1
    rw [hb] at h2
    simp only [wB, Bool.false_eq_true, if_false, if_true, List.map_nil, List.sum_nil] at h1 h2
    rw [if_neg (fun ho => by exact ho)]; simp only [work, wB]
    omega
  | register k x rest h0 hl hr =>
    have h1 := pot_move (wP n) s.parcels (.ask k) (.sending k) x rest hl
    simp only [wP] at h1
    rw [if_pos (by exact trivial)]; simp only [work]
    omega
  | moveP l l' x rest h0 hl hn hr =>
    have h1 := pot_move (wP n) s.parcels l l' x rest hl
    have h2 : wP n l x = wP n l' x + 1 := by
      cases l <;> simp only [nextP, Option.some.injEq, reduceCtorEq] at hn <;> subst hn <;> rfl
    rw [if_pos (by exact trivial)]; simp only [work]
    omega
  | forward r c x rest d h0 hl hd hr =>
    have h1 := pot_move (wP n) s.parcels (.handling r c) (.toSend r d) x rest hl
    have h2 := sum2_set2 wS s.storing r c (some (cfg.parcel x).note.calluuid)
    simp only [wP, wS] at h1 h2
    rw [if_pos (by exact trivial)]; simp only [work]
    omega
  | store r c u h0 hs =>
    have h2 := sum2_set2 wS s.storing r c none
    rw [hs] at h2
    simp only [wS] at h2
    rw [if_pos (by exact trivial)]; simp only [work]
    omega
  | accept d r cache tick x rest h0 hl hc hr =>
    have h1 := pot_move (wP n) s.parcels (.checking d r) (.collector d) x rest hl
    simp only [wP] at h1
    rw [if_pos (by exact trivial)]; simp only [work]
    omega
  | refuse d r cache tick x rest resp h0 hl hc =>
    simp only [Event.Proper] at he
    subst he
    rw [h.accept hh hl] at hc; cases hc
  | checkCrash d r cache tick x rest h0 hl hc =>
    simp only [Event.Proper] at he
    subst he
    rw [h.accept hh hl] at hc; cases hc
  | collect d now x rest tasks' h0 hl hb hc =>
    have h1 := pot_move (wP n) s.parcels (.collector d) (.collected d) x rest hl
    simp only [wP] at h1
    rw [if_pos (by exact trivial)]; simp only [work]
    omega
  | collectRun d now x rest tasks' t h0 hl hb hc =>
    have h1 := pot_move (wP n) s.parcels (.collector d) (.collected d) x rest hl
    have h2 := sum2_set2 (wJ n) s.jobs x.1 x.2 (some ⟨t, none⟩)
    simp only [wP, wJ] at h1 h2
    rw [if_pos (by exact trivial)]; simp only [work]
    omega
  | collectRefuse d now x rest tasks' i er h0 hl hb hc =>
    obtain ⟨mm, hm⟩ := h.known hh hl
    rcases collectorStep_cases (mn := cfg.net.minimalRelayedParcels) (ttl := 5000000000) (now := now) (h.keys hh d) hm with h1 | ⟨t', h1, h2⟩
    · rw [hc] at h1; simp at h1
    · rw [hc] at h1; simp at h1
  | tick d now h0 hb => rw [if_neg (fun ho => by exact ho)]; simp only [work]; omega
  | finish k r b buf t resps h0 hj ho =>
    have h1 := pot_update wA s.answers (.proc k r) ((List.finRange n).map fun i => ⟨k, i, resps i⟩)
    have h2 := sum2_set2 (wJ n) s.jobs k r (some ⟨t, some b⟩)
    rw [hj] at h2
    rw [sum_const_map _ (wA (.proc k r)) 10 (fun _ _ => rfl), sum_const_map _ (wA (.proc k r)) 10 (fun _ _ => rfl), List.length_map, List.length_finRange] at h1
    simp only [wJ] at h2
    rw [if_pos (by exact trivial)]; simp only [work]
    omega
  | finishCrash k r b buf t h0 hj ho =>
    simp only [Event.Proper] at he
    obtain ⟨rfl, hp⟩ := he
    obtain ⟨resps, h1⟩ := h.output hh hj hp
    have := (h1 _).1 ho
    cases this
  | moveA l l' a rest h0 hl hn hr =>
    have h1 := pot_move wA s.answers l l' a rest hl
    have h2 : wA l a = wA l' a + 1 := by
      cases l <;> simp only [nextA, Option.some.injEq, reduceCtorEq] at hn <;> subst hn <;> rfl
    rw [if_pos (by exact trivial)]; simp only [work]
    omega
  | route r c a rest x h0 hf hl hn hp =>
    have h1 := pot_move wA s.answers (.incoming r) (.routing r c) a rest hl
    simp only [wA] at h1
    rw [if_pos (by exact trivial)]; simp only [work]
    omega
  | drop r a rest x h0 hf hl hn hp =>
    have h1 := pot_move wA s.answers (.incoming r) (.dropped r) a rest hl
    simp only [wA] at h1
    rw [if_pos (by exact trivial)]; simp only [work]
    omega
  | routeCrash r a rest h0 hf hl hn =>
    have hm : a ∈ s.answers (.incoming r) := by rw [hl]; exact List.mem_cons_self
    obtain ⟨y, hy, -⟩ := h.note hh hm
    rw [hn] at hy; cases hy
  | answer c r k a rest h0 hf hl hp =>
    have h1 := pot_move wA s.answers (.wireC r c) (.recv c r k) a rest hl
    simp only [wA] at h1
    rw [if_pos (by exact trivial)]; simp only [work]
    omega
  | ignore c r a rest h0 hf hl hp =>
    have h1 := pot_move wA s.answers (.wireC r c) (.ignored c r) a rest hl
    simp only [wA] at h1
    rw [if_pos (by exact trivial)]; simp only [work]
    omega
  | take k cache a rest h0 hw hask hl =>
    have h1 := pot_move wA s.answers (.queue k) (.taken k) a rest hl
    simp only [wA] at h1
    rw [if_pos (by exact trivial)]; simp only [work]
    omega
  | clean r u h0 => rw [if_neg (fun ho => by exact ho)]; simp only [work]; omega
  | cancel k h0 hb => rw [if_neg (fun ho => by exact ho)]; simp only [work]; omega

theorem Inv.work_run {es : List (Event μ K m n)} (h : Inv cfg s) (hh : Honest cfg) (hes : ∀ e ∈ es, e.Proper) (r : Run cfg s es s') :
    work s' + es.countP (fun e => decide e.Own) ≤ work s := by
  induction r with
  | nil s => simp
  | @cons s s1 s2 e es st t ih =>
    have h1 := h.work_step hh (hes _ List.mem_cons_self) st
    have h2 := ih (h.step hh (hes _ List.mem_cons_self) st) (fun e he => hes e (List.mem_cons_of_mem _ he))
    rw [List.countP_cons]
    split at h1 <;> simp_all <;> omega

/-- It can always come to rest by its own steps. -/
theorem Inv.rest (h : Inv cfg s) (hh : Honest cfg) : ∃ es s', Run cfg s es s' ∧ (∀ e ∈ es, e.Own ∧ e.Proper) ∧ AtRest cfg s' := by
  induction hw : work s using Nat.strong_induction_on generalizing s with
  | _ w ih =>
    by_cases hr : AtRest cfg s
    · exact ⟨[], s, .nil s, by simp, hr⟩
    · unfold AtRest at hr
      push Not at hr
      obtain ⟨e, s', ho, hp, st⟩ := hr
      have h1 := h.work_step hh hp st
      rw [if_pos ho] at h1
      obtain ⟨es, s'', r, h2, h3⟩ := ih (work s') (by omega) (h.step hh hp st) rfl
      exact ⟨e :: es, s'', .cons st r, by simpa using ⟨⟨ho, hp⟩, h2⟩, h3⟩

end Resmix.Rrpc.CallSystem
