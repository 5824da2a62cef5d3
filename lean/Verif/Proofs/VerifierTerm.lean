import Verif.Proofs.Verifier
import Mathlib.Data.Prod.Lex
import Mathlib.Data.Finset.Prod
import Mathlib.Data.Finset.Card
import Mathlib.Order.WellFounded
import Mathlib.Data.Nat.Basic
set_option autoImplicit false
/-
Verification calls return: a lexicographic measure decreases at every step of a call or worker.
-/
namespace Resmix.Rrpc
open Resmix.Merkle

theorem sum_set {α : Type} (f : α → Nat) (l : List α) (i : Nat) (x y : α) (h : l[i]? = some x) :
    ((l.set i y).map f).sum + f x = (l.map f).sum + f y := by
  induction l generalizing i with
  | nil => simp at h
  | cons a l ih =>
    cases i with
    | zero => simp at h; subst h; simp; omega
    | succ i =>
      simp at h
      have := ih i h
      simp only [List.set_cons_succ, List.map_cons, List.sum_cons]; omega

/-- 1 for a call that has not returned. -/
def wF : VCall × VPc → Nat
  | (_, .done _) => 0
  | _ => 1

/-- 1 for a call that may still hand a task to a worker. -/
def wU : VCall × VPc → Nat
  | (_, .done _) => 0
  | (_, .waiting _ true) => 0
  | _ => 1

def wR : VCall × VPc → Nat
  | (_, .start) => 3
  | (_, .authed) => 2
  | (_, .loaded _) => 1
  | _ => 0

def wT (t : VTask) : Nat := if t.taken = true ∧ t.result = none then 1 else 0

def pcTask : VPc → Option Nat
  | .loaded t => some t
  | .waiting t _ => some t
  | _ => none

/-- Call `i` may still come to depend on the task `t`, which is with a worker or finished. -/
def Poss (s : VState) (i t : Nat) : Prop :=
  ∃ c pc, s.calls[i]? = some (c, pc) ∧ wF (c, pc) = 1 ∧ (∃ task, s.tasks[t]? = some task ∧ task.taken = true) ∧
    ((∃ d, s.map.lookup d = some t) ∨ pcTask pc = some t)

open Classical in
noncomputable def possSet (s : VState) : Finset (Nat × Nat) :=
  (Finset.range s.calls.length ×ˢ Finset.range s.tasks.length).filter (fun x => Poss s x.1 x.2)

theorem mem_possSet (s : VState) (x : Nat × Nat) : x ∈ possSet s ↔ Poss s x.1 x.2 := by
  classical
  unfold possSet
  rw [Finset.mem_filter]
  constructor
  · exact fun h => h.2
  · intro h
    refine ⟨?_, h⟩
    obtain ⟨c, pc, h1, -, ⟨task, h2, -⟩, -⟩ := h
    rw [Finset.mem_product, Finset.mem_range, Finset.mem_range]
    exact ⟨(List.getElem?_eq_some_iff.1 h1).1, (List.getElem?_eq_some_iff.1 h2).1⟩

def mF (s : VState) : Nat := (s.calls.map wF).sum
def mU (s : VState) : Nat := (s.calls.map wU).sum
noncomputable def mP (s : VState) : Nat := (possSet s).card
def mR (s : VState) : Nat := (s.calls.map wR).sum + (s.tasks.map wT).sum + (if s.crashed then 0 else 1)

noncomputable def mu (s : VState) : ℕ ×ₗ ℕ ×ₗ ℕ ×ₗ ℕ := toLex (mF s, toLex (mU s, toLex (mP s, mR s)))

theorem mu_lt {s s' : VState} (h : mF s' < mF s ∨ (mF s' = mF s ∧ (mU s' < mU s ∨ (mU s' = mU s ∧ (mP s' < mP s ∨ (mP s' ≤ mP s ∧ mR s' < mR s)))))) :
    mu s' < mu s := by
  unfold mu
  simp only [Prod.Lex.toLex_lt_toLex]
  rcases h with h | ⟨h, h' | ⟨h', h'' | ⟨h'', h3⟩⟩⟩
  · exact Or.inl h
  · exact Or.inr ⟨h, Or.inl h'⟩
  · exact Or.inr ⟨h, Or.inr ⟨h', Or.inl h''⟩⟩
  · rcases Nat.lt_or_eq_of_le h'' with h'' | h''
    · exact Or.inr ⟨h, Or.inr ⟨h', Or.inl h''⟩⟩
    · exact Or.inr ⟨h, Or.inr ⟨h', Or.inr ⟨h'', h3⟩⟩⟩

theorem mu_le {s s' : VState} (h1 : mF s' = mF s) (h2 : mU s' = mU s) (h3 : mP s' ≤ mP s) (h4 : mR s' = mR s) : mu s' ≤ mu s := by
  rcases Nat.lt_or_eq_of_le h3 with h3 | h3
  · exact le_of_lt (mu_lt (Or.inr ⟨h1, Or.inr ⟨h2, Or.inl h3⟩⟩))
  · unfold mu; rw [h1, h2, h3, h4]

theorem mP_le {s s' : VState} (h : ∀ i t, Poss s' i t → Poss s i t) : mP s' ≤ mP s :=
  Finset.card_le_card (fun x hx => (mem_possSet s x).2 (h _ _ ((mem_possSet s' x).1 hx)))

theorem mP_lt {s s' : VState} (h : ∀ i t, Poss s' i t → Poss s i t) (i t : Nat) (h1 : Poss s i t) (h2 : ¬ Poss s' i t) : mP s' < mP s := by
  apply Finset.card_lt_card
  refine ⟨fun x hx => (mem_possSet s x).2 (h _ _ ((mem_possSet s' x).1 hx)), fun hs => h2 ?_⟩
  exact (mem_possSet s' (i, t)).1 (hs ((mem_possSet s (i, t)).2 h1))

/-- Changing the program counter of a call, and possibly the map. -/
theorem poss_pc {s : VState} {i : Nat} {c : VCall} {pc pc' : VPc} (hi : s.calls[i]? = some (c, pc)) (m : GoMap Digest Nat)
    (hm : ∀ d t, m.lookup d = some t → s.map.lookup d = some t) (hd : wF (c, pc) = 1)
    (hp : ∀ t, pcTask pc' = some t → (∃ d, s.map.lookup d = some t) ∨ pcTask pc = some t) (j t : Nat)
    (h : Poss { s with map := m, calls := s.calls.set i (c, pc') } j t) : Poss s j t := by
  obtain ⟨c1, pc1, h1, h2, h3, h4⟩ := h
  rcases getElem?_set_some h1 with ⟨rfl, h⟩ | h
  · injection h with e1 e2; subst e1; subst e2
    refine ⟨c1, pc, hi, hd, h3, ?_⟩
    rcases h4 with ⟨d, h4⟩ | h4
    · exact Or.inl ⟨d, hm d t h4⟩
    · exact hp t h4
  · refine ⟨c1, pc1, h, h2, h3, ?_⟩
    rcases h4 with ⟨d, h4⟩ | h4
    · exact Or.inl ⟨d, hm d t h4⟩
    · exact Or.inr h4

theorem VWork.dec {S : SigScheme} {H : HashFn} {s s' : VState} (inv : VInv S H s) (w : VWork S H s s') : mu s' < mu s := by
  cases w with
  | noCert i c hc hi hn =>
    have := sum_set wF _ i _ (c, VPc.done (.error emptyCertificate)) hi
    exact mu_lt (Or.inl (by simp only [mF]; simp only [wF] at this; omega))
  | auth i c cert hc hi hn ha =>
    have f := sum_set wF _ i _ (c, VPc.authed) hi
    have u := sum_set wU _ i _ (c, VPc.authed) hi
    have r := sum_set wR _ i _ (c, VPc.authed) hi
    simp only [wF, wU, wR] at f u r
    refine mu_lt (Or.inr ⟨by simp only [mF]; omega, Or.inr ⟨by simp only [mU]; omega, Or.inr ⟨?_, by simp only [mR]; omega⟩⟩⟩)
    exact mP_le (poss_pc hi s.map (fun _ _ h => h) rfl (by simp [pcTask]))
  | authFail i c cert e hc hi hn ha =>
    have := sum_set wF _ i _ (c, VPc.done (.error e)) hi
    exact mu_lt (Or.inl (by simp only [mF]; simp only [wF] at this; omega))
  | load i c cert t hc hi hn hl =>
    have f := sum_set wF _ i _ (c, VPc.loaded t) hi
    have u := sum_set wU _ i _ (c, VPc.loaded t) hi
    have r := sum_set wR _ i _ (c, VPc.loaded t) hi
    simp only [wF, wU, wR] at f u r
    refine mu_lt (Or.inr ⟨by simp only [mF]; omega, Or.inr ⟨by simp only [mU]; omega, Or.inr ⟨?_, by simp only [mR]; omega⟩⟩⟩)
    exact mP_le (poss_pc hi s.map (fun _ _ h => h) rfl (by simp only [pcTask]; rintro _ h; injection h with h; subst h; exact Or.inl ⟨_, hl⟩))
  | store i c cert hc hi hn hl =>
    have f := sum_set wF _ i _ (c, VPc.loaded s.tasks.length) hi
    have u := sum_set wU _ i _ (c, VPc.loaded s.tasks.length) hi
    have r := sum_set wR _ i _ (c, VPc.loaded s.tasks.length) hi
    simp only [wF, wU, wR] at f u r
    refine mu_lt (Or.inr ⟨by simp only [mF]; omega, Or.inr ⟨by simp only [mU]; omega, Or.inr ⟨?_, ?_⟩⟩⟩)
    · refine mP_le (fun j t h => ?_)
      obtain ⟨c1, pc1, h1, h2, ⟨task, h3, h3'⟩, h4⟩ := h
      have htask : s.tasks[t]? = some task ∧ t < s.tasks.length := by
        simp only at h3
        rw [List.getElem?_append] at h3
        split at h3
        · next hlt => exact ⟨h3, hlt⟩
        · rw [List.getElem?_singleton] at h3
          split at h3
          · simp at h3; subst h3; simp at h3'
          · simp at h3
      have hmap : ∀ d, (s.map.insert (fitDigest cert.root) s.tasks.length).lookup d = some t → s.map.lookup d = some t := by
        intro d hd
        by_cases hdd : d = fitDigest cert.root
        · subst hdd; rw [GoMap.lookup_insert_self] at hd; injection hd with hd; omega
        · rwa [GoMap.lookup_insert_ne _ _ hdd] at hd
      rcases getElem?_set_some h1 with ⟨rfl, h⟩ | h
      · injection h with e1 e2; subst e1; subst e2
        refine ⟨c1, .authed, hi, rfl, ⟨task, htask.1, h3'⟩, ?_⟩
        rcases h4 with ⟨d, h4⟩ | h4
        · exact Or.inl ⟨d, hmap d h4⟩
        · simp only [pcTask] at h4; injection h4 with h4; omega
      · refine ⟨c1, pc1, h, h2, ⟨task, htask.1, h3'⟩, ?_⟩
        rcases h4 with ⟨d, h4⟩ | h4
        · exact Or.inl ⟨d, hmap d h4⟩
        · exact Or.inr h4
    · simp only [mR, List.map_append, List.sum_append, List.map_cons, List.map_nil, wT, List.sum_cons, List.sum_nil, Bool.false_eq_true,
        false_and, if_false]
      omega
  | take i c t task hc hi ht htk =>
    have f := sum_set wF _ i _ (c, VPc.waiting t true) hi
    have u := sum_set wU _ i _ (c, VPc.waiting t true) hi
    simp only [wF, wU] at f u
    exact mu_lt (Or.inr ⟨by simp only [mF]; omega, Or.inl (by simp only [mU]; omega)⟩)
  | join i c t task hc hi ht htk =>
    have f := sum_set wF _ i _ (c, VPc.waiting t false) hi
    have u := sum_set wU _ i _ (c, VPc.waiting t false) hi
    have r := sum_set wR _ i _ (c, VPc.waiting t false) hi
    simp only [wF, wU, wR] at f u r
    refine mu_lt (Or.inr ⟨by simp only [mF]; omega, Or.inr ⟨by simp only [mU]; omega, Or.inr ⟨?_, by simp only [mR]; omega⟩⟩⟩)
    exact mP_le (poss_pc hi s.map (fun _ _ h => h) rfl (fun u hu => Or.inr hu))
  | work t task hc ht htk hr hp =>
    have r := sum_set wT _ t _ { task with result := some (sigResult S task.pk task.cert) } ht
    have e1 : wT task = 1 := by simp [wT, htk, hr]
    have e2 : wT { task with result := some (sigResult S task.pk task.cert) } = 0 := by simp [wT]
    rw [e1, e2] at r
    refine mu_lt (Or.inr ⟨rfl, Or.inr ⟨rfl, Or.inr ⟨?_, by simp only [mR]; omega⟩⟩⟩)
    refine mP_le (fun j u h => ?_)
    obtain ⟨c1, pc1, h1, h2, ⟨tsk, h3, h3'⟩, h4⟩ := h
    refine ⟨c1, pc1, h1, h2, ?_, h4⟩
    rcases getElem?_set_some h3 with ⟨rfl, h⟩ | h
    · exact ⟨task, ht, htk⟩
    · exact ⟨tsk, h, h3'⟩
  | workCrash t task hc ht htk hr hp =>
    refine mu_lt (Or.inr ⟨rfl, Or.inr ⟨rfl, Or.inr ⟨?_, by simp [mR, hc]⟩⟩⟩)
    exact mP_le (fun j u h => h)
  | accept i c t mine task hc hi ht hr =>
    have := sum_set wF _ i _ (c, VPc.done (.ok ())) hi
    exact mu_lt (Or.inl (by simp only [mF]; simp only [wF] at this; omega))
  | retry i c cert t task e hc hi hn ht hr hs =>
    have f := sum_set wF _ i _ (c, VPc.start) hi
    have u := sum_set wU _ i _ (c, VPc.start) hi
    simp only [wF, wU] at f u
    refine mu_lt (Or.inr ⟨by simp only [mF]; omega, Or.inr ⟨by simp only [mU]; omega, Or.inl ?_⟩⟩)
    obtain ⟨cert', h1, h2, task', h3, h4, h5⟩ := inv.call i c _ hi
    rw [ht] at h3; injection h3 with h3; subst h3
    rw [hn] at h1; injection h1 with h1; subst h1
    refine mP_lt (poss_pc hi _ (fun _ _ h => lookup_erase_some h) rfl (by simp [pcTask])) i t ⟨c, _, hi, rfl, ⟨task, ht, h5⟩, Or.inr rfl⟩ ?_
    rintro ⟨c1, pc1, g1, g2, g3, g4⟩
    rcases getElem?_set_some g1 with ⟨-, h⟩ | h
    · injection h with e1 e2; subst e1; subst e2
      rcases g4 with ⟨d, g4⟩ | g4
      · simp only at g4
        obtain ⟨tsk, k1, k2⟩ := inv.map d t (lookup_erase_some g4)
        rw [ht] at k1; injection k1 with k1; subst k1
        rw [h4] at k2
        subst k2
        rw [GoMap.lookup_erase_self] at g4; simp at g4
      · simp [pcTask] at g4
    · simp only at g1
      rw [List.getElem?_set_self (List.getElem?_eq_some_iff.1 hi).1] at g1
      injection g1 with g1; injection g1 with e1 e2; subst e1; subst e2
      rcases g4 with ⟨d, g4⟩ | g4
      · simp only at g4
        obtain ⟨tsk, k1, k2⟩ := inv.map d t (lookup_erase_some g4)
        rw [ht] at k1; injection k1 with k1; subst k1
        rw [h4] at k2
        subst k2
        rw [GoMap.lookup_erase_self] at g4; simp at g4
      · simp [pcTask] at g4
  | reject i c cert t mine task e hc hi hn ht hr hs =>
    have := sum_set wF _ i _ (c, VPc.done (.error e)) hi
    exact mu_lt (Or.inl (by simp only [mF]; simp only [wF] at this; omega))

theorem clean_le (s : VState) (d : Digest) : mu { s with map := s.map.erase d } ≤ mu s := by
  refine mu_le rfl rfl (mP_le (fun i t h => ?_)) rfl
  obtain ⟨c1, pc1, h1, h2, h3, h4⟩ := h
  refine ⟨c1, pc1, h1, h2, h3, ?_⟩
  rcases h4 with ⟨d', h4⟩ | h4
  · exact Or.inl ⟨d', lookup_erase_some h4⟩
  · exact Or.inr h4

/-- An antitone sequence in a well-founded order decreases finitely often. -/
theorem eventually_const {α : Type} [LinearOrder α] [WellFoundedLT α] (f : ℕ → α) (h : ∀ n, f (n + 1) ≤ f n) : ∃ N, ∀ n, N ≤ n → ¬ f (n + 1) < f n := by
  have hmono : ∀ n m, n ≤ m → f m ≤ f n := by
    intro n m hnm
    induction hnm with
    | refl => exact le_refl _
    | step _ ih => exact le_trans (h _) ih
  obtain ⟨a, ⟨N, rfl⟩, hN⟩ := WellFounded.has_min (wellFounded_lt (α := α)) (Set.range f) ⟨f 0, 0, rfl⟩
  refine ⟨N, fun n hn hlt => ?_⟩
  exact hN (f (n + 1)) ⟨n + 1, rfl⟩ (lt_of_lt_of_le hlt (hmono N n hn))

theorem progress {S : SigScheme} {H : HashFn} {s : VState} (inv : VInv S H s) (hc : s.crashed = false) (i : Nat) (c : VCall) (pc : VPc)
    (hi : s.calls[i]? = some (c, pc)) (hd : ∀ r, pc ≠ .done r) : ∃ s', VWork S H s s' := by
  match pc, hd, hi with
  | .start, _, hi =>
    match hcert : c.cert with
    | none => exact ⟨_, .noCert s i c hc hi hcert⟩
    | some cert =>
      match ha : authPath H cert c.enc with
      | .ok () => exact ⟨_, .auth s i c cert hc hi hcert ha⟩
      | .error e => exact ⟨_, .authFail s i c cert e hc hi hcert ha⟩
  | .authed, _, hi =>
    obtain ⟨cert, h1, -⟩ := inv.call i c _ hi
    match hl : s.map.lookup (fitDigest cert.root) with
    | none => exact ⟨_, .store s i c cert hc hi h1 hl⟩
    | some t => exact ⟨_, .load s i c cert t hc hi h1 hl⟩
  | .loaded t, _, hi =>
    obtain ⟨cert, h1, -, task, h2, -⟩ := inv.call i c _ hi
    match hk : task.taken with
    | false => exact ⟨_, .take s i c t task hc hi h2 hk⟩
    | true => exact ⟨_, .join s i c t task hc hi h2 hk⟩
  | .waiting t mine, _, hi =>
    obtain ⟨cert, h1, -, task, h2, -, h3⟩ := inv.call i c _ hi
    match hr : task.result with
    | none =>
      by_cases hp : sigResult S task.pk task.cert = .error .panic
      · exact ⟨_, .workCrash s t task hc h2 h3 hr hp⟩
      · exact ⟨_, .work s t task hc h2 h3 hr hp⟩
    | some (.ok ()) => exact ⟨_, .accept s i c t mine task hc hi h2 hr⟩
    | some (.error e) =>
      by_cases hs : mine = true ∨ task.cert.signature ≠ cert.signature
      · exact ⟨_, .reject s i c cert t mine task e hc hi h1 h2 hr hs⟩
      · simp only [not_or, ne_eq, not_not, Bool.not_eq_true] at hs
        obtain ⟨hm, hs⟩ := hs
        subst hm
        exact ⟨_, .retry s i c cert t task e hc hi h1 h2 hr hs⟩
  | .done r, hd, _ => exact absurd rfl (hd r)

end Resmix.Rrpc
