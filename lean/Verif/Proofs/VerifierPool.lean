import Verif.Model.VerifierPool
import Verif.Proofs.VerifierTerm
set_option autoImplicit false
/-
The pooled verifier refines the one of Model/Verifier.
-/
namespace Resmix.Rrpc
open Resmix.Merkle

/-- Where Model/Verifier sees a call. -/
def PPc.abs : PPc → VPc
  | .start => .start
  | .queued => .start
  | .answered _ => .start
  | .authed => .authed
  | .loaded t => .loaded t
  | .chosen t => .waiting t true
  | .waiting t m => .waiting t m
  | .done r => .done r

/-- The state Model/Verifier sees. -/
def PState.abs (s : PState) : VState :=
  { map := s.map, tasks := s.tasks, calls := s.calls.map fun x => (x.1, x.2.abs), crashed := s.crashed }

structure PInv (H : HashFn) (n : Nat) (s : PState) : Prop where
  path : ∀ i, (.path i ∈ s.chan ∨ .path i ∈ s.busy) → ∃ c cert, s.calls[i]? = some (c, .queued) ∧ c.cert = some cert
  queued : ∀ (i : Nat) (c : VCall), s.calls[i]? = some (c, PPc.queued) → PTask.path i ∈ s.chan ∨ PTask.path i ∈ s.busy
  nodupC : s.chan.Nodup
  nodupB : s.busy.Nodup
  disj : ∀ x ∈ s.chan, x ∉ s.busy
  ans : ∀ (i : Nat) (c : VCall) (r : Go Unit), s.calls[i]? = some (c, .answered r) → ∃ cert, c.cert = some cert ∧ r = authPath H cert c.enc
  sig : ∀ t, (.sig t ∈ s.chan ∨ .sig t ∈ s.busy) → ∃ task, s.tasks[t]? = some task ∧ task.taken = true ∧ task.result = none
  chosen : ∀ (i : Nat) (c : VCall) (t : Nat), s.calls[i]? = some (c, .chosen t) →
    (∃ task, s.tasks[t]? = some task ∧ task.taken = true ∧ task.result = none) ∧ PTask.sig t ∉ s.chan ∧ PTask.sig t ∉ s.busy
  uniq : ∀ (i j : Nat) (c c' : VCall) (t : Nat), s.calls[i]? = some (c, .chosen t) → s.calls[j]? = some (c', .chosen t) → i = j
  pend : ∀ (t : Nat) (task : VTask), s.tasks[t]? = some task → task.taken = true → task.result = none →
    PTask.sig t ∈ s.chan ∨ PTask.sig t ∈ s.busy ∨ ∃ (i : Nat) (c : VCall), s.calls[i]? = some (c, .chosen t)
  res : ∀ (t : Nat) (task : VTask), s.tasks[t]? = some task → task.taken = false → task.result = none

theorem getElem?_append_one {α : Type} {l : List α} {a b : α} {i : Nat} (h : (l ++ [a])[i]? = some b) : l[i]? = some b ∨ (i = l.length ∧ b = a) := by
  rw [List.getElem?_append] at h
  grind

theorem chosen_set {l : List (VCall × PPc)} {i : Nat} {c : VCall} {pc pc' : PPc} (hi : l[i]? = some (c, pc)) {t : Nat} (hpc : pc ≠ .chosen t)
    (h : ∃ (j : Nat) (c' : VCall), l[j]? = some (c', .chosen t)) : ∃ (j : Nat) (c' : VCall), (l.set i (c, pc'))[j]? = some (c', .chosen t) := by
  obtain ⟨j, c', h⟩ := h
  refine ⟨j, c', ?_⟩
  rw [List.getElem?_set]
  split
  · next hij => subst hij; rw [hi] at h; injection h with h; injection h with h1 h2; exact absurd h2 hpc
  · exact h

theorem PInv.init (H : HashFn) (n : Nat) : PInv H n (.init n) := by
  constructor <;> simp [PState.init]

set_option maxHeartbeats 4000000 in
theorem PInv.work {S : SigScheme} {H : HashFn} {n : Nat} {s s' : PState} (inv : PInv H n s) (h : PWork S H n s s') : PInv H n s' := by
  obtain ⟨i1, i2, i3, i4, i5, i6, i7, i8, i9, i10, i11⟩ := inv
  cases h with
  | noCert i c hc hi hcert => constructor <;> simp only [PState.goto] <;> first | grind | exact fun t task h1 h2 h3 => (i10 t task h1 h2 h3).imp (fun h => by grind) (fun h => h.imp id (chosen_set hi (by simp)))
  | submit i c cert hc hi hcert hcap => constructor <;> simp only [PState.goto] <;> first | grind | exact fun t task h1 h2 h3 => (i10 t task h1 h2 h3).imp (fun h => by grind) (fun h => h.imp id (chosen_set hi (by simp)))
  | pick x q hc hi hq => constructor <;> simp only [hq] at * <;> grind
  | answer l₁ l₂ i c cert hc hb hi hcert => constructor <;> simp only [PState.goto, hb] at * <;> first | grind | exact fun t task h1 h2 h3 => (i10 t task h1 h2 h3).imp id (fun h => h.imp (fun h => by grind) (chosen_set hi (by simp)))
  | answerTwice i hc hb hi => constructor <;> grind
  | pathOk i c hc hi => constructor <;> simp only [PState.goto] <;> first | grind | exact fun t task h1 h2 h3 => (i10 t task h1 h2 h3).imp (fun h => by grind) (fun h => h.imp id (chosen_set hi (by simp)))
  | pathBad i c e hc hi => constructor <;> simp only [PState.goto] <;> first | grind | exact fun t task h1 h2 h3 => (i10 t task h1 h2 h3).imp (fun h => by grind) (fun h => h.imp id (chosen_set hi (by simp)))
  | load i c cert t hc hi hcert hl => constructor <;> simp only [PState.goto] <;> first | grind | exact fun t task h1 h2 h3 => (i10 t task h1 h2 h3).imp (fun h => by grind) (fun h => h.imp id (chosen_set hi (by simp)))
  | store i c cert hc hi hcert hl => constructor <;> simp only [PState.goto] <;> first | grind | exact fun t task h1 h2 h3 => (i10 t task (by grind [getElem?_append_one]) h2 h3).imp id (fun h => h.imp id (chosen_set hi (by simp)))
  | take i c t task hc hi ht hk => constructor <;> simp only [PState.goto] <;> first
      | grind
      | exact fun t' task' h1 h2 h3 => by
          by_cases ht' : t = t'
          · exact Or.inr (Or.inr ⟨i, c, by grind⟩)
          · exact (i10 t' task' (by grind) h2 h3).imp id (fun h => h.imp id (chosen_set hi (by simp)))
  | join i c t task hc hi ht hk => constructor <;> simp only [PState.goto] <;> first | grind | exact fun t task h1 h2 h3 => (i10 t task h1 h2 h3).imp (fun h => by grind) (fun h => h.imp id (chosen_set hi (by simp)))
  | submitSig i c t hc hi hcap => constructor <;> simp only [PState.goto] <;> first
      | grind
      | exact fun t' task' h1 h2 h3 => by
          by_cases ht' : t = t'
          · exact Or.inl (by grind)
          · exact (i10 t' task' h1 h2 h3).imp (fun h => by grind) (fun h => h.imp id (chosen_set hi (by grind)))
  | work l₁ l₂ t task hc hb ht hr hp => constructor <;> simp only [hb] at * <;> grind
  | workCrash t task hc hb ht hp => constructor <;> grind
  | workTwice t task r hc hb ht hr => constructor <;> grind
  | accept i c t mine task hc hi ht hr => constructor <;> simp only [PState.goto] <;> first | grind | exact fun t task h1 h2 h3 => (i10 t task h1 h2 h3).imp (fun h => by grind) (fun h => h.imp id (chosen_set hi (by simp)))
  | retry i c cert t task e hc hi hcert ht hr hs => constructor <;> simp only [PState.goto] <;> first | grind | exact fun t task h1 h2 h3 => (i10 t task h1 h2 h3).imp (fun h => by grind) (fun h => h.imp id (chosen_set hi (by simp)))
  | reject i c cert t mine task e hc hi hcert ht hr hs => constructor <;> simp only [PState.goto] <;> first | grind | exact fun t task h1 h2 h3 => (i10 t task h1 h2 h3).imp (fun h => by grind) (fun h => h.imp id (chosen_set hi (by simp)))
  | exit hc hs hi => constructor <;> grind

theorem PInv.step {S : SigScheme} {H : HashFn} {n : Nat} {s s' : PState} (inv : PInv H n s) (h : PStep S H n s s') : PInv H n s' := by
  cases h with
  | work _ h => exact inv.work h
  | clean d hc => obtain ⟨i1, i2, i3, i4, i5, i6, i7, i8, i9, i10, i11⟩ := inv; constructor <;> grind
  | stop hc => obtain ⟨i1, i2, i3, i4, i5, i6, i7, i8, i9, i10, i11⟩ := inv; constructor <;> grind
  | call c hc => obtain ⟨i1, i2, i3, i4, i5, i6, i7, i8, i9, i10, i11⟩ := inv; constructor <;> first | grind | exact fun t task h1 h2 h3 => (i10 t task h1 h2 h3).imp id (fun h => h.imp id (fun ⟨j, c', h⟩ => ⟨j, c', by grind⟩))

/-- Steps Model/Verifier does not see. -/
def wS : VCall × PPc → Nat
  | (_, .start) => 4
  | (_, .chosen _) => 4
  | _ => 0

def stut (s : PState) : Nat := (s.calls.map wS).sum + 3 * s.chan.length + 2 * s.busy.length + s.idle

theorem abs_calls {s : PState} {i : Nat} {c : VCall} {pc : PPc} (h : s.calls[i]? = some (c, pc)) : s.abs.calls[i]? = some (c, pc.abs) := by
  simp [PState.abs, h]

theorem abs_set (s : PState) (i : Nat) (c : VCall) (pc : PPc) :
    (s.calls.set i (c, pc)).map (fun x => (x.1, x.2.abs)) = (s.calls.map (fun x => (x.1, x.2.abs))).set i (c, pc.abs) := by
  rw [List.map_set]

theorem set_same {α : Type} {l : List α} {i : Nat} {a : α} (h : l[i]? = some a) : l.set i a = l := by
  apply List.ext_getElem?
  intro j
  rw [List.getElem?_set]
  grind

theorem abs_same {s : PState} {i : Nat} {c : VCall} {pc pc' : PPc} (h : s.calls[i]? = some (c, pc)) (he : pc'.abs = pc.abs) :
    (s.calls.set i (c, pc')).map (fun x => (x.1, x.2.abs)) = s.calls.map (fun x => (x.1, x.2.abs)) := by
  rw [abs_set, he]
  exact set_same (abs_calls h)

/-- A step of the pooled verifier is a step of the other, or one that it does not see; only finitely many of the latter follow each other. -/
theorem PWork.ref {S : SigScheme} {H : HashFn} {n : Nat} {s s' : PState} (inv : PInv H n s) (h : PWork S H n s s') :
    VWork S H s.abs s'.abs ∨ (s'.abs = s.abs ∧ stut s' < stut s) := by
  cases h with
  | noCert i c hc hi hcert => left; simpa [PState.abs, PState.goto, PPc.abs] using VWork.noCert (S := S) (H := H) s.abs i c hc (abs_calls hi) hcert
  | submit i c cert hc hi hcert hcap =>
    right
    have := sum_set wS s.calls i (c, .start) (c, .queued) hi
    refine ⟨?_, ?_⟩
    · simp only [PState.abs, PState.goto]; congr 1; exact abs_same hi rfl
    · simp only [stut, PState.goto, List.length_append, List.length_singleton]; simp only [wS] at this; omega
  | pick x q hc hi hq =>
    right
    refine ⟨rfl, ?_⟩
    simp only [stut, hq, List.length_cons]; omega
  | answer l₁ l₂ i c cert hc hb hi hcert =>
    right
    have := sum_set wS s.calls i (c, .queued) (c, .answered (authPath H cert c.enc)) hi
    refine ⟨?_, ?_⟩
    · simp only [PState.abs, PState.goto]; congr 1; exact abs_same hi rfl
    · simp only [stut, PState.goto, hb, List.length_append, List.length_cons]; simp only [wS] at this; omega
  | answerTwice i hc hb hi =>
    obtain ⟨c, cert, h, -⟩ := inv.path i (Or.inr hb)
    exact absurd h (hi c)
  | pathOk i c hc hi =>
    left
    obtain ⟨cert, h1, h2⟩ := inv.ans i c _ hi
    simpa [PState.abs, PState.goto, PPc.abs] using VWork.auth (S := S) (H := H) s.abs i c cert hc (abs_calls hi) h1 h2.symm
  | pathBad i c e hc hi =>
    left
    obtain ⟨cert, h1, h2⟩ := inv.ans i c _ hi
    simpa [PState.abs, PState.goto, PPc.abs] using VWork.authFail (S := S) (H := H) s.abs i c cert e hc (abs_calls hi) h1 h2.symm
  | load i c cert t hc hi hcert hl => left; simpa [PState.abs, PState.goto, PPc.abs] using VWork.load (S := S) (H := H) s.abs i c cert t hc (abs_calls hi) hcert hl
  | store i c cert hc hi hcert hl => left; simpa [PState.abs, PState.goto, PPc.abs] using VWork.store (S := S) (H := H) s.abs i c cert hc (abs_calls hi) hcert hl
  | take i c t task hc hi ht hk => left; simpa [PState.abs, PState.goto, PPc.abs] using VWork.take (S := S) (H := H) s.abs i c t task hc (abs_calls hi) ht hk
  | join i c t task hc hi ht hk => left; simpa [PState.abs, PState.goto, PPc.abs] using VWork.join (S := S) (H := H) s.abs i c t task hc (abs_calls hi) ht hk
  | submitSig i c t hc hi hcap =>
    right
    have := sum_set wS s.calls i (c, .chosen t) (c, .waiting t true) hi
    refine ⟨?_, ?_⟩
    · simp only [PState.abs, PState.goto]; congr 1; exact abs_same hi rfl
    · simp only [stut, PState.goto, List.length_append, List.length_singleton]; simp only [wS] at this; omega
  | work l₁ l₂ t task hc hb ht hr hp =>
    left
    obtain ⟨task', h1, h2, h3⟩ := inv.sig t (Or.inr (by rw [hb]; simp))
    rw [ht] at h1; injection h1 with h1; subst h1
    exact VWork.work (S := S) (H := H) s.abs t task hc ht h2 hr hp
  | workCrash t task hc hb ht hp =>
    left
    obtain ⟨task', h1, h2, h3⟩ := inv.sig t (Or.inr hb)
    rw [ht] at h1; injection h1 with h1; subst h1
    exact VWork.workCrash (S := S) (H := H) s.abs t task hc ht h2 h3 hp
  | workTwice t task r hc hb ht hr =>
    obtain ⟨task', h1, h2, h3⟩ := inv.sig t (Or.inr hb)
    rw [ht] at h1; injection h1 with h1; subst h1
    rw [hr] at h3; cases h3
  | accept i c t mine task hc hi ht hr => left; simpa [PState.abs, PState.goto, PPc.abs] using VWork.accept (S := S) (H := H) s.abs i c t mine task hc (abs_calls hi) ht hr
  | retry i c cert t task e hc hi hcert ht hr hs =>
    left; simpa [PState.abs, PState.goto, PPc.abs] using VWork.retry (S := S) (H := H) s.abs i c cert t task e hc (abs_calls hi) hcert ht hr hs
  | reject i c cert t mine task e hc hi hcert ht hr hs =>
    left; simpa [PState.abs, PState.goto, PPc.abs] using VWork.reject (S := S) (H := H) s.abs i c cert t mine task e hc (abs_calls hi) hcert ht hr hs
  | exit hc hs hi =>
    right
    refine ⟨rfl, ?_⟩
    simp only [stut]; omega

theorem PReach.inv {S : SigScheme} {H : HashFn} {n : Nat} {s : PState} (h : PReach S H n s) : PInv H n s := by
  induction h with
  | init => exact PInv.init H n
  | step s s' _ st ih => exact ih.step st

theorem PReach.ref {S : SigScheme} {H : HashFn} {n : Nat} {s : PState} (h : PReach S H n s) : VReach S H s.abs := by
  induction h with
  | init => exact VReach.init
  | step s s' hr st ih =>
    cases st with
    | call c hc =>
      have := VReach.step _ _ ih (.call s.abs c hc)
      simpa [PState.abs, PPc.abs] using this
    | work _ h =>
      rcases h.ref hr.inv with h | ⟨h, -⟩
      · exact VReach.step _ _ ih (.work _ _ h)
      · rw [h]; exact ih
    | clean d hc => exact VReach.step _ _ ih (.clean s.abs d hc)
    | stop hc => exact ih

/-- The number of workers. -/
theorem PReach.workers {S : SigScheme} {H : HashFn} {n : Nat} {s : PState} (h : PReach S H n s) :
    s.idle + s.busy.length ≤ n ∧ (s.stopped = false → s.idle + s.busy.length = n) ∧ s.chan.length ≤ tasksCap n := by
  induction h with
  | init => simp [PState.init]
  | step s s' hr st ih =>
    obtain ⟨h1, h2, h3⟩ := ih
    cases st with
    | call c hc => exact ⟨h1, h2, h3⟩
    | clean d hc => exact ⟨h1, h2, h3⟩
    | stop hc => exact ⟨h1, by simp, h3⟩
    | work _ h => cases h <;> simp only [PState.goto] <;> grind

/-- A worker that has something to do does it. -/
theorem worker_step {S : SigScheme} {H : HashFn} {n : Nat} {s : PState} (inv : PInv H n s) (hc : s.crashed = false) (hb : s.busy ≠ []) :
    ∃ s', PWork S H n s s' := by
  obtain ⟨x, l, hx⟩ : ∃ x l, s.busy = x :: l := by
    cases h : s.busy with
    | nil => exact absurd h hb
    | cons x l => exact ⟨x, l, rfl⟩
  cases x with
  | path i =>
    obtain ⟨c, cert, h1, h2⟩ := inv.path i (Or.inr (by rw [hx]; simp))
    exact ⟨_, .answer s [] l i c cert hc hx h1 h2⟩
  | sig t =>
    obtain ⟨task, h1, -, h3⟩ := inv.sig t (Or.inr (by rw [hx]; simp))
    by_cases hp : sigResult S task.pk task.cert = .error .panic
    · exact ⟨_, .workCrash s t task hc (by rw [hx]; simp) h1 hp⟩
    · exact ⟨_, .work s [] l t task hc hx h1 h3 hp⟩

theorem pool_progress {S : SigScheme} {H : HashFn} {n : Nat} (hn : 0 < n) {s : PState} (hr : PReach S H n s) (hc : s.crashed = false) (hs : s.stopped = false)
    (i : Nat) (c : VCall) (pc : PPc) (hi : s.calls[i]? = some (c, pc)) (hd : ∀ r, pc ≠ .done r) : ∃ s', PWork S H n s s' := by
  have inv := hr.inv
  have vinv := hr.ref.inv
  obtain ⟨-, hw, -⟩ := hr.workers
  have hw := hw hs
  by_cases hb : s.busy = []
  · cases hch : s.chan with
    | cons x q => exact ⟨_, .pick s x q hc (by rw [hb] at hw; simp at hw; omega) hch⟩
    | nil =>
      have hcap : s.chan.length < tasksCap n := by rw [hch]; simp [tasksCap]; omega
      match pc, hd, hi with
      | .start, _, hi =>
        match hcert : c.cert with
        | none => exact ⟨_, .noCert s i c hc hi hcert⟩
        | some cert => exact ⟨_, .submit s i c cert hc hi hcert hcap⟩
      | .queued, _, hi => have := inv.queued i c hi; rw [hch, hb] at this; simp at this
      | .answered (.ok ()), _, hi => exact ⟨_, .pathOk s i c hc hi⟩
      | .answered (.error e), _, hi => exact ⟨_, .pathBad s i c e hc hi⟩
      | .authed, _, hi =>
        obtain ⟨cert, h1, -⟩ := vinv.call i c _ (abs_calls hi)
        match hl : s.map.lookup (fitDigest cert.root) with
        | none => exact ⟨_, .store s i c cert hc hi h1 hl⟩
        | some t => exact ⟨_, .load s i c cert t hc hi h1 hl⟩
      | .loaded t, _, hi =>
        obtain ⟨cert, h1, -, task, h2, -⟩ := vinv.call i c _ (abs_calls hi)
        match hk : task.taken with
        | false => exact ⟨_, .take s i c t task hc hi h2 hk⟩
        | true => exact ⟨_, .join s i c t task hc hi h2 hk⟩
      | .chosen t, _, hi => exact ⟨_, .submitSig s i c t hc hi hcap⟩
      | .waiting t mine, _, hi =>
        obtain ⟨cert, h1, -, task, h2, -, h3⟩ := vinv.call i c _ (abs_calls hi)
        match hr : task.result with
        | none =>
          rcases inv.pend t task h2 h3 hr with h | h | ⟨j, c', h⟩
          · rw [hch] at h; simp at h
          · rw [hb] at h; simp at h
          · exact ⟨_, .submitSig s j c' t hc h hcap⟩
        | some (.ok ()) => exact ⟨_, .accept s i c t mine task hc hi h2 hr⟩
        | some (.error e) =>
          by_cases hs : mine = true ∨ task.cert.signature ≠ cert.signature
          · exact ⟨_, .reject s i c cert t mine task e hc hi h1 h2 hr hs⟩
          · simp only [not_or, ne_eq, not_not, Bool.not_eq_true] at hs
            obtain ⟨hm, hs⟩ := hs
            subst hm
            exact ⟨_, .retry s i c cert t task e hc hi h1 h2 hr hs⟩
      | .done r, hd, _ => exact absurd rfl (hd r)
  · exact worker_step inv hc hb

noncomputable def pmu (s : PState) : (ℕ ×ₗ ℕ ×ₗ ℕ ×ₗ ℕ) ×ₗ ℕ := toLex (mu s.abs, stut s)

theorem PWork.dec {S : SigScheme} {H : HashFn} {n : Nat} {s s' : PState} (inv : PInv H n s) (vinv : VInv S H s.abs) (h : PWork S H n s s') : pmu s' < pmu s := by
  unfold pmu
  rw [Prod.Lex.toLex_lt_toLex]
  rcases h.ref inv with h | ⟨h, h'⟩
  · exact Or.inl (h.dec vinv)
  · exact Or.inr ⟨by rw [h], h'⟩

theorem pclean_le (s : PState) (d : Digest) : pmu { s with map := s.map.erase d } ≤ pmu s := by
  unfold pmu
  rw [Prod.Lex.toLex_le_toLex]
  rcases lt_or_eq_of_le (clean_le s.abs d) with h | h
  · exact Or.inl h
  · exact Or.inr ⟨h, le_refl _⟩

end Resmix.Rrpc
