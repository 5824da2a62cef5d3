import Verif.Proofs.VerifierPool
import Verif.Props.Verifier
set_option autoImplicit false
/-
C101, C102: the verifier with its workers.
-/
namespace Resmix.Rrpc
open Resmix.Merkle

/-- C101. With any number of workers, the bounded channel between calls and workers, and any number of concurrent calls, every state of the calls is one that is also
reachable with a worker always at hand (Model/Verifier): the same calls have returned, with the same results, and the process has crashed or not. So C46, C47, C73 hold of
the pool as well. -/
theorem C101_same_results (S : SigScheme) (H : HashFn) (n : Nat) (s : PState) (hs : PReach S H n s) :
    ∃ v, VReach S H v ∧ v.crashed = s.crashed ∧ v.calls.map Prod.fst = s.calls.map Prod.fst ∧
      ∀ (i : Nat) (c : VCall) (r : Go Unit), v.calls[i]? = some (c, .done r) ↔ s.calls[i]? = some (c, .done r) := by
  refine ⟨s.abs, hs.ref, rfl, ?_, ?_⟩
  · simp [PState.abs, Function.comp_def]
  · intro i c r
    constructor
    · intro h
      simp only [PState.abs, List.getElem?_map, Option.map_eq_some_iff] at h
      obtain ⟨⟨c', pc⟩, h1, h2⟩ := h
      injection h2 with h2 h3
      subst h2
      cases pc <;> simp [PPc.abs] at h3
      subst h3
      exact h1
    · exact fun h => abs_calls h

/-- For instance: an accepted certificate has a correct path from the object to its root, and some call made so far named a key whose signature on this root its
certificate contained. -/
theorem C101_accepted (S : SigScheme) (H : HashFn) (n : Nat) (s : PState) (hs : PReach S H n s) (i : Nat) (c : VCall) (hd : s.calls[i]? = some (c, .done (.ok ()))) :
    ∃ cert, c.cert = some cert ∧ authPath H cert c.enc = .ok () ∧
      ∃ c' ∈ s.calls.map Prod.fst, ∃ cert', c'.cert = some cert' ∧ fitDigest cert'.root = fitDigest cert.root ∧ ValidSig S c'.pk cert' := by
  obtain ⟨v, h1, -, h3, h4⟩ := C101_same_results S H n s hs
  obtain ⟨cert, a, b, d⟩ := C46_some_call_was_valid_partial S H v h1 i c ((h4 i c _).2 hd)
  rw [h3] at d
  exact ⟨cert, a, b, d⟩

/-- No worker answers twice, or reports a task twice (both would crash the process): with keys of the right length nothing crashes. -/
theorem C101_no_crash (S : SigScheme) (H : HashFn) (n : Nat) (s : PState) (hs : PReach S H n s) (hlen : ∀ c ∈ s.calls.map Prod.fst, c.pk.length = 32) :
    s.crashed = false := by
  obtain ⟨v, h1, h2, h3, -⟩ := C101_same_results S H n s hs
  rw [← h2]
  exact C73_right_length_partial S H v h1 (by rw [h3]; exact hlen)

/-- C101. Verification always returns. In every infinite execution without further calls (and with cleanups at any time), from some point on no call and no worker makes a
step ... -/
theorem C101_finitely_many_steps (S : SigScheme) (H : HashFn) (n : Nat) (f : ℕ → PState) (h0 : PReach S H n (f 0))
    (hstep : ∀ k, PWork S H n (f k) (f (k + 1)) ∨ ((f k).crashed = false ∧ ∃ d, f (k + 1) = { f k with map := (f k).map.erase d })) :
    ∃ N, ∀ k, N ≤ k → ¬ PWork S H n (f k) (f (k + 1)) := by
  have hr : ∀ k, PReach S H n (f k) := by
    intro k
    induction k with
    | zero => exact h0
    | succ k ih =>
      rcases hstep k with h | ⟨hc, d, h⟩
      · exact .step _ _ ih (.work _ _ h)
      · rw [h]; exact .step _ _ ih (.clean _ d hc)
  obtain ⟨N, hN⟩ := eventually_const (fun k => pmu (f k)) (fun k => by
    rcases hstep k with h | ⟨-, d, h⟩
    · exact le_of_lt (h.dec (hr k).inv (hr k).ref.inv)
    · simp only [h]; exact pclean_le _ _)
  exact ⟨N, fun k hk hw => hN k hk (hw.dec (hr k).inv (hr k).ref.inv)⟩

/-- ... and while some call has not returned, some call or worker can make a step, if there is a worker at all and the verifier is not stopped: calls waiting for room in
the channel and workers do not wait for each other. -/
theorem C101_never_stuck (S : SigScheme) (H : HashFn) (n : Nat) (hn : 0 < n) (s : PState) (hs : PReach S H n s) (hstop : s.stopped = false) (hc : s.crashed = false)
    (hrun : ∃ x ∈ s.calls, ∀ r, x.2 ≠ .done r) : ∃ s', PWork S H n s s' := by
  obtain ⟨⟨c, pc⟩, hx, hd⟩ := hrun
  obtain ⟨i, hi⟩ := List.getElem?_of_mem hx
  exact pool_progress hn hs hc hstop i c pc hi hd

/-- C101. So when calls and workers can make no further step all calls have returned (or the process has crashed). -/
theorem C101_all_calls_return (S : SigScheme) (H : HashFn) (n : Nat) (hn : 0 < n) (s : PState) (hs : PReach S H n s) (hstop : s.stopped = false)
    (hend : ∀ s', ¬ PWork S H n s s') : s.crashed = true ∨ ∀ x ∈ s.calls, ∃ r, x.2 = .done r := by
  by_cases hc : s.crashed = true
  · exact Or.inl hc
  · right
    intro x hx
    by_contra hcon
    obtain ⟨s', h⟩ := C101_never_stuck S H n hn s hs hstop (by simpa using hc) ⟨x, hx, fun r h => hcon ⟨r, h⟩⟩
    exact hend s' h

/-- The cases are not empty: with one worker, a call that is accepted. -/
example (S : SigScheme) (H : HashFn) (sk : S.Sk) (enc : Bytes) : ∃ s, PReach S H 1 s ∧
    s.calls = [(⟨S.pub sk, some (leafCert H enc (S.sign sk (H enc))), enc⟩, .done (.ok ()))] := by
  let ca := leafCert H enc (S.sign sk (H enc))
  let a : VCall := ⟨S.pub sk, some ca, enc⟩
  have hra : sigResult S (S.pub sk) ca = .ok () := sigResult_pub S sk ca (by rw [leafCert_root]; rfl)
  have hau : authPath H ca enc = .ok () := leafCert_auth H enc _
  have r1 := PReach.step _ _ (PReach.init (S := S) (H := H) (n := 1)) (.call _ a rfl)
  have r2 := PReach.step _ _ r1 (.work _ _ (.submit _ 0 a ca rfl rfl rfl (show 0 < 8 by decide)))
  have r3 := PReach.step _ _ r2 (.work _ _ (.pick _ (.path 0) [] rfl (show 0 < 1 by decide) rfl))
  have r4 := PReach.step _ _ r3 (.work _ _ (.answer _ [] [] 0 a ca rfl rfl rfl rfl))
  rw [show authPath H ca a.enc = .ok () from hau] at r4
  have r5 := PReach.step _ _ r4 (.work _ _ (.pathOk _ 0 a rfl rfl))
  have r6 := PReach.step _ _ r5 (.work _ _ (.store _ 0 a ca rfl rfl rfl rfl))
  have r7 := PReach.step _ _ r6 (.work _ _ (.take _ 0 a 0 ⟨S.pub sk, ca, false, none⟩ rfl rfl rfl rfl))
  have r8 := PReach.step _ _ r7 (.work _ _ (.submitSig _ 0 a 0 rfl rfl (show 0 < 8 by decide)))
  have r9 := PReach.step _ _ r8 (.work _ _ (.pick _ (.sig 0) [] rfl (show 0 < 1 by decide) rfl))
  have r10 := PReach.step _ _ r9 (.work _ _ (.work _ [] [] 0 ⟨S.pub sk, ca, true, none⟩ rfl rfl rfl rfl (by simp only; rw [hra]; simp)))
  have r11 := PReach.step _ _ r10 (.work _ _ (.accept _ 0 a 0 true ⟨S.pub sk, ca, true, some (.ok ())⟩ rfl rfl (by simp only [hra]; rfl) rfl))
  exact ⟨_, r11, rfl⟩

/-! ### Stop -/

/-- After Stop the workers may all end. -/
theorem all_exit {S : SigScheme} {H : HashFn} {n : Nat} (s : PState) (hs : PReach S H n s) (hc : s.crashed = false) (hst : s.stopped = true) :
    PReach S H n { s with idle := 0 } := by
  obtain ⟨k, hk⟩ : ∃ k, s.idle = k := ⟨_, rfl⟩
  induction k generalizing s with
  | zero => rw [← hk]; exact hs
  | succ k ih =>
    have := ih { s with idle := s.idle - 1 } (.step _ _ hs (.work _ _ (.exit s hc hst (by omega)))) hc hst (by simp [hk])
    exact this

/-- Once no worker is left, a call that has a certificate and no answer yet never returns, whatever happens. -/
theorem hung {S : SigScheme} {H : HashFn} {n : Nat} {s s' : PState} (h : Relation.ReflTransGen (PStep S H n) s s') (i : Nat) (c : VCall) (hcert : c.cert ≠ none)
    (hi : s.calls[i]? = some (c, .start) ∨ s.calls[i]? = some (c, .queued)) (h0 : s.idle = 0) (hb : s.busy = []) :
    s'.idle = 0 ∧ s'.busy = [] ∧ (s'.calls[i]? = some (c, .start) ∨ s'.calls[i]? = some (c, .queued)) := by
  induction h with
  | refl => exact ⟨h0, hb, hi⟩
  | tail _ st ih =>
    obtain ⟨h1, h2, h3⟩ := ih
    cases st with
    | call c' hc => exact ⟨h1, h2, by grind⟩
    | clean d hc => exact ⟨h1, h2, h3⟩
    | stop hc => exact ⟨h1, h2, h3⟩
    | work _ h =>
      have hno : ∀ (l₁ l₂ : List PTask) (x : PTask), [] ≠ l₁ ++ x :: l₂ := by simp
      cases h <;> simp only [PState.goto] <;> grind

/-- C102 fails. A call in progress when the verifier is stopped (a coordinator stops its verifier when it is closed), and one made afterwards, may never return: the workers
have ended and nobody answers. `a` is in progress, `b` is made after Stop; neither returns in any continuation, with further calls, cleanups and Stops. -/
theorem C102_calls_hang_refuted (S : SigScheme) (H : HashFn) (n : Nat) (hn : 0 < n) (a b : VCall) (ha : a.cert ≠ none) (hb : b.cert ≠ none) :
    ∃ s, PReach S H n s ∧ s.calls.map Prod.fst = [a, b] ∧
      ∀ s', Relation.ReflTransGen (PStep S H n) s s' → ∀ r, s'.calls[0]? ≠ some (a, .done r) ∧ s'.calls[1]? ≠ some (b, .done r) := by
  obtain ⟨ca, hca⟩ := Option.ne_none_iff_exists'.1 ha
  have r1 := PReach.step _ _ (PReach.init (S := S) (H := H) (n := n)) (.call _ a rfl)
  have r2 := PReach.step _ _ r1 (.work _ _ (.submit _ 0 a ca rfl rfl hca (show 0 < n * 8 by omega)))
  have r3 := PReach.step _ _ r2 (.stop _ rfl)
  have r4 := all_exit _ r3 rfl rfl
  have r5 := PReach.step _ _ r4 (.call _ b rfl)
  refine ⟨_, r5, rfl, fun s' h r => ⟨fun hd => ?_, fun hd => ?_⟩⟩
  · obtain ⟨-, -, h | h⟩ := hung h 0 a ha (Or.inr rfl) rfl rfl <;> rw [h] at hd <;> simp at hd
  · obtain ⟨-, -, h | h⟩ := hung h 1 b hb (Or.inl rfl) rfl rfl <;> rw [h] at hd <;> simp at hd

/-- What holds of C102: Stop ends the workers. After it, calls and workers make finitely many steps (C101_finitely_many_steps), and when none is possible any more no worker
is left (or the process has crashed); and (C101_no_crash) stopping, also repeatedly, never crashes it. -/
theorem C102_workers_end_partial (S : SigScheme) (H : HashFn) (n : Nat) (s : PState) (hs : PReach S H n s) (hstop : s.stopped = true) (hc : s.crashed = false)
    (hend : ∀ s', ¬ PWork S H n s s') : s.idle = 0 ∧ s.busy = [] := by
  constructor
  · by_contra h
    exact hend _ (.exit s hc hstop (by omega))
  · by_contra h
    obtain ⟨s', h⟩ := worker_step hs.inv hc h
    exact hend s' h

/-- What holds of C102 too: a call whose signature check is finished when the workers end still returns. -/
theorem C102_checked_partial (S : SigScheme) (H : HashFn) (n : Nat) (s : PState) (hs : PReach S H n s) (hc : s.crashed = false) (hend : ∀ s', ¬ PWork S H n s s')
    (i : Nat) (c : VCall) (t : Nat) (mine : Bool) (task : VTask) (ht : s.tasks[t]? = some task) (hr : task.result ≠ none) :
    s.calls[i]? ≠ some (c, .waiting t mine) := by
  intro hi
  obtain ⟨cert, h1, -, -⟩ := hs.ref.inv.call i c _ (abs_calls hi)
  match h : task.result with
  | none => exact hr h
  | some (.ok ()) => exact hend _ (.accept s i c t mine task hc hi ht h)
  | some (.error e) =>
    by_cases hm : mine = true ∨ task.cert.signature ≠ cert.signature
    · exact hend _ (.reject s i c cert t mine task e hc hi h1 ht h hm)
    · simp only [not_or, ne_eq, not_not, Bool.not_eq_true] at hm
      obtain ⟨hm, hs⟩ := hm
      subst hm
      exact hend _ (.retry s i c cert t task e hc hi h1 ht h hs)

/-- A stopped verifier without calls that has ended. -/
example (S : SigScheme) (H : HashFn) : ∃ s, PReach S H 3 s ∧ s.stopped = true ∧ s.crashed = false ∧ ∀ s', ¬ PWork S H 3 s s' := by
  refine ⟨_, all_exit _ (PReach.step _ _ PReach.init (.stop _ rfl)) rfl rfl, rfl, rfl, ?_⟩
  intro s' h
  cases h <;> simp_all [PState.init]

end Resmix.Rrpc
