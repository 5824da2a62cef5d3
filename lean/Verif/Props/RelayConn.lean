import Verif.Model.RelayConn
import Verif.Proofs.GoMap
import Verif.Proofs.SumBy
set_option autoImplicit false
/-
C85, C86: the connections of a client to the relays, all interleavings.
-/
namespace Resmix.Rrpc.RelayConn

theorem run_append (s : State) (a b : List Ev) : run s (a ++ b) = (run s a).bind fun s' => run s' b := by
  induction a generalizing s with
  | nil => rfl
  | cons e a ih =>
    simp only [List.cons_append, run]
    cases step s e with
    | none => rfl
    | some s' => exact ih s'

/-- Call `i` has id `u`. -/
def IsCall (s : State) (i : Nat) (u : Str) : Prop := ∃ c, s.calls[i]? = some c ∧ c.uuid = u

theorem put_some {n : Nat} {calls cs : List Call} {i : Nat} {x : RelayStreamResponse} (h : put n calls i x = some cs) :
    ∃ c, calls[i]? = some c ∧ c.queue.length < n ∧ cs = calls.set i { c with queue := c.queue ++ [x] } := by
  unfold put at h
  split at h
  · cases h
  · next c hc =>
    split at h
    · next hl => injection h with h; exact ⟨c, hc, hl, h.symm⟩
    · cases h

/-- The invariant of C85. -/
structure Own (s : State) : Prop where
  queue : ∀ (i : Nat) (c : Call), s.calls[i]? = some c → (∀ x ∈ c.queue, x.uuid = c.uuid) ∧ ∀ x ∈ c.taken, x.uuid = c.uuid
  live : ∀ (r : Nat) (k : Conn), s.conns[r]? = some k → ∀ u i, k.live.lookup u = some i → IsCall s i u
  recv : ∀ (r : Nat) (k : Conn), s.conns[r]? = some k → ∀ i x, k.recv = some (i, x) → IsCall s i x.uuid
  cleaner : ∀ (r : Nat) (k : Conn), s.conns[r]? = some k → ∀ u i, k.cleaner = .notifying u i → IsCall s i u

theorem own_step (s s' : State) (e : Ev) (h : Own s) (hst : step s e = some s') : Own s' := by
  obtain ⟨h1, h2, h3, h4⟩ := h
  have up : ∀ (conns : List Conn) (j : Nat) (c d : Call), s.calls[j]? = some c → d.uuid = c.uuid → ∀ i u, IsCall s i u → IsCall ⟨conns, s.calls.set j d⟩ i u := by
    intro conns j c d hc hd i u ⟨c', hc', hu⟩
    by_cases hij : j = i
    · subst hij
      rw [hc] at hc'; injection hc' with hc'; subst hc'
      exact ⟨d, by simp [(List.getElem?_eq_some_iff.1 hc).1], by rw [hd, hu]⟩
    · exact ⟨c', by simp only; rw [List.getElem?_set_ne hij]; exact hc', hu⟩
  have up' : ∀ (conns : List Conn) i u, IsCall s i u → IsCall ⟨conns, s.calls⟩ i u := fun conns i u h => h
  have setq : ∀ (P : Call → Prop) (j : Nat) (d : Call), (∀ (i : Nat) (c : Call), s.calls[i]? = some c → P c) → P d → ∀ (i : Nat) (c : Call), (s.calls.set j d)[i]? = some c → P c := by
    intro P j d h hd i c hc
    rw [List.getElem?_set] at hc
    split at hc
    · split at hc
      · injection hc with hc; subst hc; exact hd
      · cases hc
    · exact h i c hc
  have setk : ∀ (P : Conn → Prop) (j : Nat) (d : Conn), (∀ (i : Nat) (c : Conn), s.conns[i]? = some c → P c) → P d → ∀ (i : Nat) (c : Conn), (s.conns.set j d)[i]? = some c → P c := by
    intro P j d h hd i c hc
    rw [List.getElem?_set] at hc
    split at hc
    · split at hc
      · injection hc with hc; subst hc; exact hd
      · cases hc
    · exact h i c hc
  cases e with
  | call u =>
    injection hst with hst; subst hst
    have upa : ∀ i v, IsCall s i v → IsCall { s with calls := s.calls ++ [⟨u, [], 0, true, []⟩] } i v := by
      intro i v ⟨c, hc, hu⟩
      exact ⟨c, by simp only; rw [List.getElem?_append_left (List.getElem?_eq_some_iff.1 hc).1]; exact hc, hu⟩
    refine ⟨?_, fun r k hk v i hl => upa _ _ (h2 r k hk v i hl), fun r k hk i x hl => upa _ _ (h3 r k hk i x hl), fun r k hk v i hl => upa _ _ (h4 r k hk v i hl)⟩
    intro i c hc
    simp only [List.getElem?_append] at hc
    split at hc
    · exact h1 i c hc
    · have := List.mem_of_getElem? hc
      simp only [List.mem_singleton] at this
      subst this; simp
  | ask i =>
    simp only [step] at hst
    split at hst
    · cases hst
    · next c hc =>
      split at hst
      · cases hst
      · next k hk =>
        injection hst with hst; subst hst
        refine ⟨setq _ _ _ h1 (h1 i c hc), ?_, ?_, ?_⟩
        · refine setk (fun k => ∀ u i', k.live.lookup u = some i' → IsCall _ i' u) _ _ (fun r k hk u i' hl => up _ i c _ hc (by rfl) _ _ (h2 r k hk u i' hl)) ?_
          intro u i' hl
          simp only [GoMap.lookup_insert] at hl
          split at hl
          · next hu => injection hl with hl; subst hl hu; exact up _ i c _ hc (by rfl) _ _ ⟨c, hc, rfl⟩
          · exact up _ i c _ hc (by rfl) _ _ (h2 _ k hk u i' hl)
        · exact setk (fun k => ∀ i' x, k.recv = some (i', x) → IsCall _ i' x.uuid) _ _ (fun r k hk u i' hl => up _ i c _ hc (by rfl) _ _ (h3 r k hk u i' hl))
            (fun i' x hl => up _ i c _ hc (by rfl) _ _ (h3 _ k hk i' x hl))
        · exact setk (fun k => ∀ u i', k.cleaner = .notifying u i' → IsCall _ i' u) _ _ (fun r k hk u i' hl => up _ i c _ hc (by rfl) _ _ (h4 r k hk u i' hl))
            (fun u i' hl => up _ i c _ hc (by rfl) _ _ (h4 _ k hk u i' hl))
  | answer r x =>
    simp only [step] at hst
    split at hst
    · cases hst
    · next k hk =>
      split at hst
      · cases hst
      · split at hst
        · injection hst with hst; subst hst; exact ⟨h1, h2, h3, h4⟩
        · next i hl =>
          injection hst with hst; subst hst
          refine ⟨h1, ?_, ?_, ?_⟩
          · refine setk (fun k => ∀ u i', k.live.lookup u = some i' → IsCall _ i' u) _ _ h2 ?_
            intro u i' hl'
            simp only [GoMap.lookup_erase] at hl'
            split at hl'
            · cases hl'
            · exact h2 r k hk u i' hl'
          · refine setk (fun k => ∀ i' x, k.recv = some (i', x) → IsCall _ i' x.uuid) _ _ h3 ?_
            intro i' x' hl'
            simp only [Option.some.injEq, Prod.mk.injEq] at hl'
            obtain ⟨rfl, rfl⟩ := hl'
            exact h2 r k hk _ _ hl
          · exact setk (fun k => ∀ u i', k.cleaner = .notifying u i' → IsCall _ i' u) _ _ h4 (h4 r k hk)
  | hand r =>
    simp only [step] at hst
    split at hst
    · cases hst
    · next k hk =>
      split at hst
      · cases hst
      · next i x hr =>
        split at hst
        · cases hst
        · next cs hcs =>
          injection hst with hst; subst hst
          obtain ⟨c, hc, hl, rfl⟩ := put_some hcs
          obtain ⟨c', hc', hu⟩ := h3 r k hk i x hr
          rw [hc] at hc'; injection hc' with hc'; subst hc'
          refine ⟨setq _ _ _ h1 ⟨?_, (h1 i c hc).2⟩, ?_, ?_, ?_⟩
          · intro y hy
            rcases List.mem_append.1 hy with hy | hy
            · exact (h1 i c hc).1 y hy
            · rw [List.mem_singleton.1 hy]; exact hu.symm
          · exact setk (fun k => ∀ u i', k.live.lookup u = some i' → IsCall _ i' u) _ _ (fun r k hk u i' hl => up _ i c _ hc (by rfl) _ _ (h2 r k hk u i' hl))
              (fun u i' hl => up _ i c _ hc (by rfl) _ _ (h2 r k hk u i' hl))
          · exact setk (fun k => ∀ i' x, k.recv = some (i', x) → IsCall _ i' x.uuid) _ _ (fun r k hk u i' hl => up _ i c _ hc (by rfl) _ _ (h3 r k hk u i' hl)) (by simp)
          · exact setk (fun k => ∀ u i', k.cleaner = .notifying u i' → IsCall _ i' u) _ _ (fun r k hk u i' hl => up _ i c _ hc (by rfl) _ _ (h4 r k hk u i' hl))
              (fun u i' hl => up _ i c _ hc (by rfl) _ _ (h4 r k hk u i' hl))
  | take i =>
    simp only [step] at hst
    split at hst
    · cases hst
    · next c hc =>
      split at hst
      · cases hst
      · next x q hq =>
        split at hst
        · injection hst with hst; subst hst
          have hq' := (h1 i c hc).1
          rw [hq] at hq'
          refine ⟨setq _ _ _ h1 ⟨fun y hy => hq' y (by simp [hy]), ?_⟩, fun r k hk u j hl => up _ i c _ hc (by rfl) _ _ (h2 r k hk u j hl), fun r k hk j x hl => up _ i c _ hc (by rfl) _ _ (h3 r k hk j x hl),
            fun r k hk u j hl => up _ i c _ hc (by rfl) _ _ (h4 r k hk u j hl)⟩
          intro y hy
          rcases List.mem_append.1 hy with hy | hy
          · exact (h1 i c hc).2 y hy
          · rw [List.mem_singleton.1 hy]; exact hq' x (by simp)
        · cases hst
  | «return» i =>
    simp only [step] at hst
    split at hst
    · cases hst
    · next c hc =>
      injection hst with hst; subst hst
      exact ⟨setq _ _ _ h1 (h1 i c hc), fun r k hk u j hl => up _ i c _ hc (by rfl) _ _ (h2 r k hk u j hl), fun r k hk j x hl => up _ i c _ hc (by rfl) _ _ (h3 r k hk j x hl),
        fun r k hk u j hl => up _ i c _ hc (by rfl) _ _ (h4 r k hk u j hl)⟩
  | look r u =>
    simp only [step] at hst
    split at hst
    · cases hst
    · next k hk =>
      split at hst
      · next i _ hl =>
        injection hst with hst; subst hst
        refine ⟨h1, setk (fun k => ∀ u i', k.live.lookup u = some i' → IsCall _ i' u) _ _ h2 (h2 r k hk), setk (fun k => ∀ i' x, k.recv = some (i', x) → IsCall _ i' x.uuid) _ _ h3 (h3 r k hk),
          setk (fun k => ∀ u i', k.cleaner = .notifying u i' → IsCall _ i' u) _ _ h4 ?_⟩
        intro u' i' h
        simp only [Cleaner.notifying.injEq] at h
        obtain ⟨rfl, rfl⟩ := h
        exact h2 r k hk _ _ hl
      · cases hst
  | notify r =>
    simp only [step] at hst
    split at hst
    · cases hst
    · next k hk =>
      split at hst
      · next u i hcl =>
        split at hst
        · cases hst
        · next cs hcs =>
          injection hst with hst; subst hst
          obtain ⟨c, hc, hl, rfl⟩ := put_some hcs
          obtain ⟨c', hc', hu⟩ := h4 r k hk u i hcl
          rw [hc] at hc'; injection hc' with hc'; subst hc'
          refine ⟨setq _ _ _ h1 ⟨?_, (h1 i c hc).2⟩, ?_, ?_, ?_⟩
          · intro y hy
            rcases List.mem_append.1 hy with hy | hy
            · exact (h1 i c hc).1 y hy
            · rw [List.mem_singleton.1 hy]; exact hu.symm
          · exact setk (fun k => ∀ u i', k.live.lookup u = some i' → IsCall _ i' u) _ _ (fun r k hk u i' hl => up _ i c _ hc (by rfl) _ _ (h2 r k hk u i' hl))
              (fun u i' hl => up _ i c _ hc (by rfl) _ _ (h2 r k hk u i' hl))
          · exact setk (fun k => ∀ i' x, k.recv = some (i', x) → IsCall _ i' x.uuid) _ _ (fun r k hk u i' hl => up _ i c _ hc (by rfl) _ _ (h3 r k hk u i' hl))
              (fun u i' hl => up _ i c _ hc (by rfl) _ _ (h3 r k hk u i' hl))
          · exact setk (fun k => ∀ u i', k.cleaner = .notifying u i' → IsCall _ i' u) _ _ (fun r k hk u i' hl => up _ i c _ hc (by rfl) _ _ (h4 r k hk u i' hl)) (by simp)
      · cases hst
  | delete r =>
    simp only [step] at hst
    split at hst
    · cases hst
    · next k hk =>
      split at hst
      · next u hcl =>
        injection hst with hst; subst hst
        refine ⟨h1, setk (fun k => ∀ u i', k.live.lookup u = some i' → IsCall _ i' u) _ _ h2 ?_, setk (fun k => ∀ i' x, k.recv = some (i', x) → IsCall _ i' x.uuid) _ _ h3 (h3 r k hk),
          setk (fun k => ∀ u i', k.cleaner = .notifying u i' → IsCall _ i' u) _ _ h4 (by simp)⟩
        intro v i hl
        simp only [GoMap.lookup_erase] at hl
        split at hl
        · cases hl
        · exact h2 r k hk v i hl
      · cases hst
  | cancel r u =>
    simp only [step] at hst
    split at hst
    · cases hst
    · next k hk =>
      injection hst with hst; subst hst
      refine ⟨h1, setk (fun k => ∀ u i', k.live.lookup u = some i' → IsCall _ i' u) _ _ h2 ?_, setk (fun k => ∀ i' x, k.recv = some (i', x) → IsCall _ i' x.uuid) _ _ h3 (h3 r k hk),
        setk (fun k => ∀ u i', k.cleaner = .notifying u i' → IsCall _ i' u) _ _ h4 (h4 r k hk)⟩
      intro v i hl
      simp only [GoMap.lookup_erase] at hl
      split at hl
      · cases hl
      · exact h2 r k hk v i hl

theorem own_init (n : Nat) : Own (init n) := by
  refine ⟨by simp [init], ?_, ?_, ?_⟩ <;>
  · intro r k hk
    have := List.mem_of_getElem? hk
    simp only [init, List.mem_replicate] at this
    rw [this.2]; simp [GoMap.lookup]

/-- C85: in every interleaving of any number of robust calls (also with equal ids), the answers of the relays, in any order and number, and the cleanups: a call
gets only answers and time-outs with its own call id. -/
theorem C85_own_id (n : Nat) (evs : List Ev) (s : State) (hr : run (init n) evs = some s) (i : Nat) (c : Call) (hc : s.calls[i]? = some c) (x : RelayStreamResponse)
    (hx : x ∈ c.taken ∨ x ∈ c.queue) : x.uuid = c.uuid := by
  have key : ∀ (evs : List Ev) (s0 s : State), Own s0 → run s0 evs = some s → Own s := by
    intro evs
    induction evs with
    | nil => intro s0 s h hr; simp only [run, Option.some.injEq] at hr; subst hr; exact h
    | cons e evs ih =>
      intro s0 s h hr
      rw [run] at hr
      cases hst : step s0 e with
      | none => rw [hst] at hr; cases hr
      | some s1 => rw [hst] at hr; exact ih s1 s (own_step s0 s1 e h hst) hr
  have := (key evs _ s (own_init n) hr).queue i c hc
  rcases hx with hx | hx
  · exact this.2 x hx
  · exact this.1 x hx

/-! ### C86 -/

/-- Nobody reads the answers of call `i` any more, and its channel is full. -/
def Full (n : Nat) (s : State) (i : Nat) : Prop := ∃ c, s.calls[i]? = some c ∧ c.reading = false ∧ n ≤ c.queue.length

theorem full_step (s s' : State) (i : Nat) (e : Ev) (h : Full s.conns.length s i) (hst : step s e = some s') : Full s'.conns.length s' i ∧ s'.conns.length = s.conns.length ∧
    (∀ (r : Nat) (k : Conn) (x : RelayStreamResponse), s.conns[r]? = some k → k.recv = some (i, x) → ∃ k', s'.conns[r]? = some k' ∧ k'.recv = some (i, x)) ∧
    (∀ (r : Nat) (k : Conn) (u : Str), s.conns[r]? = some k → k.cleaner = .notifying u i → ∃ k', s'.conns[r]? = some k' ∧ k'.cleaner = .notifying u i) := by
  obtain ⟨c, hc, hr, hq⟩ := h
  unfold Full
  cases e with
  | call u => simp only [step, Option.some.injEq] at hst; subst hst; grind
  | ask j => simp only [step] at hst; grind
  | answer r x => simp only [step] at hst; grind
  | hand r => simp only [step, put] at hst; grind
  | take j => simp only [step] at hst; grind
  | «return» j => simp only [step] at hst; grind
  | look r u => simp only [step] at hst; grind
  | notify r => simp only [step, put] at hst; grind
  | delete r => simp only [step] at hst; grind
  | cancel r u => simp only [step] at hst; grind

/-- C86 fails: when the answer of a relay has to be handed over to a call that is over and whose channel is full, the connection to this relay never receives
anything again; if it is a time-out, this connection's cleanup never does anything again. Both goroutines never end, so closing the coordinator hangs. -/
theorem C86_stuck_refuted (evs : List Ev) (s s' : State) (i : Nat) (h : Full s.conns.length s i) (hr : run s evs = some s') :
    (∀ (r : Nat) (k : Conn) (x : RelayStreamResponse), s.conns[r]? = some k → k.recv = some (i, x) →
      (∃ k', s'.conns[r]? = some k' ∧ k'.recv = some (i, x)) ∧ ∀ y, step s' (.answer r y) = none) ∧
    (∀ (r : Nat) (k : Conn) (u : Str), s.conns[r]? = some k → k.cleaner = .notifying u i →
      (∃ k', s'.conns[r]? = some k' ∧ k'.cleaner = .notifying u i) ∧ ∀ v, step s' (.look r v) = none) := by
  have key : ∀ (evs : List Ev) (s : State), Full s.conns.length s i → run s evs = some s' →
      (∀ (r : Nat) (k : Conn) (x : RelayStreamResponse), s.conns[r]? = some k → k.recv = some (i, x) → ∃ k', s'.conns[r]? = some k' ∧ k'.recv = some (i, x)) ∧
      (∀ (r : Nat) (k : Conn) (u : Str), s.conns[r]? = some k → k.cleaner = .notifying u i → ∃ k', s'.conns[r]? = some k' ∧ k'.cleaner = .notifying u i) := by
    intro evs
    induction evs with
    | nil => intro s _ hr; simp only [run, Option.some.injEq] at hr; subst hr; exact ⟨fun r k x a b => ⟨k, a, b⟩, fun r k u a b => ⟨k, a, b⟩⟩
    | cons e evs ih =>
      intro s h hr
      rw [run] at hr
      cases hst : step s e with
      | none => rw [hst] at hr; cases hr
      | some s1 =>
        rw [hst] at hr
        obtain ⟨a, b, c, d⟩ := full_step s s1 i e h hst
        obtain ⟨c', d'⟩ := ih s1 a hr
        refine ⟨fun r k x hk hx => ?_, fun r k u hk hu => ?_⟩
        · obtain ⟨k1, e1, e2⟩ := c r k x hk hx; exact c' r k1 x e1 e2
        · obtain ⟨k1, e1, e2⟩ := d r k u hk hu; exact d' r k1 u e1 e2
  obtain ⟨k1, k2⟩ := key evs s h hr
  refine ⟨fun r k x hk hx => ⟨k1 r k x hk hx, fun y => ?_⟩, fun r k u hk hu => ⟨k2 r k u hk hu, fun v => ?_⟩⟩
  · obtain ⟨k', e1, e2⟩ := k1 r k x hk hx
    obtain ⟨hlt, hget⟩ := List.getElem?_eq_some_iff.1 e1
    simp [step, hlt, hget, e2]
  · obtain ⟨k', e1, e2⟩ := k2 r k u hk hu
    obtain ⟨hlt, hget⟩ := List.getElem?_eq_some_iff.1 e1
    simp [step, hlt, hget, e2]

/-- The answer of a relay to call `u`. -/
def reply (u : Str) : RelayStreamResponse := { relayStreamError := none, response := none, uuid := u }

/-- Both situations are reachable, here with two relays: the caller gives up; the cleanup of connection 0 notifies the call, then the answers of both relays arrive. -/
example (u : Str) : ∃ s, run (init 2) [.call u, .ask 0, .ask 0, .return 0, .look 0 u, .notify 0, .answer 1 (reply u), .hand 1, .answer 0 (reply u)] = some s ∧ Full s.conns.length s 0 ∧
    ∃ k, s.conns[0]? = some k ∧ k.recv = some (0, reply u) := by
  simp [run, step, init, put, reply, GoMap.lookup, GoMap.insert, GoMap.erase, List.replicate, Full]

example (u : Str) : ∃ s, run (init 2) [.call u, .ask 0, .ask 0, .return 0, .look 0 u, .answer 1 (reply u), .hand 1, .answer 0 (reply u), .hand 0] = some s ∧ Full s.conns.length s 0 ∧
    ∃ k, s.conns[0]? = some k ∧ k.cleaner = .notifying u 0 := by
  simp [run, step, init, put, reply, GoMap.lookup, GoMap.insert, GoMap.erase, List.replicate, Full]

/-- The cleanup goroutine of connection `k` is at the entry of `u`. -/
def Conn.busyWith (k : Conn) (u : Str) : Prop := k.cleaner = .deleting u ∨ ∃ i, k.cleaner = .notifying u i

/-- A run in which no connection receives the answer to a call while its cleanup goroutine is at the entry of that call. -/
inductive CalmRun (n : Nat) : List Ev → State → Prop
  | init : CalmRun n [] (init n)
  | step (evs : List Ev) (s s' : State) (e : Ev) : CalmRun n evs s → step s e = some s' →
      (∀ r x, e = .answer r x → ∀ k, s.conns[r]? = some k → ¬ k.busyWith x.uuid) → CalmRun n (evs ++ [e]) s'

/-- The entries of the table not yet being cleaned up. -/
def entries (k : Conn) : GoMap Str Nat :=
  match k.cleaner with
  | .idle => k.live
  | .notifying u _ => k.live.erase u
  | .deleting u => k.live.erase u

/-- The number of entries for call `i`. -/
def cntOf (i : Nat) (m : GoMap Str Nat) : Nat := m.countP fun e => decide (e.2 = i)

/-- What connection `k` may still hand over to call `i`. -/
def owed (i : Nat) (k : Conn) : Nat :=
  cntOf i (entries k) + (if k.recv.map Prod.fst = some i then 1 else 0) + (match k.cleaner with | .notifying _ j => if j = i then 1 else 0 | _ => 0)

theorem erase_filter {ν : Type} (m : GoMap Str ν) (k : Str) : m.erase k = m.filter fun e => decide (e.1 ≠ k) := by
  induction m with
  | nil => rfl
  | cons e m ih =>
    simp only [GoMap.erase, List.filter_cons, ih]
    by_cases h : e.1 = k <;> simp [h]

theorem cntOf_erase_le (i : Nat) (m : GoMap Str Nat) (u : Str) : cntOf i (m.erase u) ≤ cntOf i m := (GoMap.erase_sublist m u).countP_le

theorem erase_comm {ν : Type} (m : GoMap Str ν) (u v : Str) : (m.erase u).erase v = (m.erase v).erase u := by
  simp only [erase_filter, List.filter_filter]
  congr 1; funext e; exact Bool.and_comm _ _

theorem erase_idem {ν : Type} (m : GoMap Str ν) (u : Str) : (m.erase u).erase u = m.erase u := by
  simp only [erase_filter, List.filter_filter, Bool.and_self]

theorem cntOf_erase (i : Nat) (m : GoMap Str Nat) (u : Str) (h : m.lookup u = some i) : cntOf i (m.erase u) + 1 ≤ cntOf i m := by
  induction m with
  | nil => cases h
  | cons e m ih =>
    obtain ⟨a, b⟩ := e
    simp only [GoMap.lookup] at h
    by_cases hu : a = u
    · simp only [hu, if_true, Option.some.injEq] at h
      subst h hu
      have := cntOf_erase_le b m a
      simp only [GoMap.erase, if_true, cntOf, List.countP_cons] at *
      simp; omega
    · simp only [hu, if_false] at h
      have := ih h
      simp only [GoMap.erase, hu, if_false, cntOf, List.countP_cons] at *
      omega

theorem cntOf_insert (i j : Nat) (m : GoMap Str Nat) (u : Str) : cntOf j (m.insert u i) ≤ cntOf j m + if i = j then 1 else 0 := by
  have := cntOf_erase_le j m u
  simp only [GoMap.insert, cntOf, List.countP_cons] at *
  by_cases h : i = j <;> simp [h] <;> omega

theorem cntOf_insert_erase (i j : Nat) (m : GoMap Str Nat) (u v : Str) : cntOf j ((m.insert u i).erase v) ≤ cntOf j (m.erase v) + if i = j then 1 else 0 := by
  by_cases h : u = v
  · subst h
    have : (m.insert u i).erase u = m.erase u := by simp [GoMap.insert, GoMap.erase, erase_idem]
    rw [this]; omega
  · have h1 : (m.insert u i).erase v = (m.erase v).insert u i := by simp [GoMap.insert, GoMap.erase, h, erase_comm m u v]
    rw [h1]; exact cntOf_insert i j _ u

/-- The invariant of calm runs. -/
structure Budget (n : Nat) (s : State) : Prop where
  relays : s.conns.length = n
  asked : ∀ (i : Nat) (c : Call), s.calls[i]? = some c → c.asked ≤ n
  call : ∀ (i : Nat) (c : Call), s.calls[i]? = some c → sumBy (owed i) s.conns + c.queue.length + c.taken.length ≤ c.asked
  noCall : ∀ i, s.calls[i]? = none → sumBy (owed i) s.conns = 0

/-- What a change of one connection does to the invariant. -/
theorem owed_set (s : State) (r : Nat) (k k' : Conn) (hk : s.conns[r]? = some k) (i : Nat) :
    sumBy (owed i) (s.conns.set r k') + owed i k = sumBy (owed i) s.conns + owed i k' := sum_set (owed i) s.conns r k k' hk

theorem budget_conn (n : Nat) (s : State) (h : Budget n s) (r : Nat) (k k' : Conn) (hk : s.conns[r]? = some k) (hle : ∀ i, owed i k' ≤ owed i k) :
    Budget n { s with conns := s.conns.set r k' } := by
  obtain ⟨h1, h2, h3, h4⟩ := h
  refine ⟨by simpa using h1, h2, ?_, ?_⟩
  · intro i c hc
    have a := owed_set s r k k' hk i
    have b := h3 i c hc
    have d := hle i
    simp only; omega
  · intro i hc
    have a := owed_set s r k k' hk i
    have b := h4 i hc
    have d := hle i
    simp only; omega

/-- Handing over to call `j` what connection `r` owed it. -/
theorem budget_put (n : Nat) (s : State) (h : Budget n s) (r j : Nat) (k k' : Conn) (c : Call) (x : RelayStreamResponse) (hk : s.conns[r]? = some k) (hc : s.calls[j]? = some c)
    (hle : ∀ i, owed i k' + (if i = j then 1 else 0) ≤ owed i k) :
    Budget n { conns := s.conns.set r k', calls := s.calls.set j { c with queue := c.queue ++ [x] } } := by
  obtain ⟨h1, h2, h3, h4⟩ := h
  have hlt := (List.getElem?_eq_some_iff.1 hc).1
  refine ⟨by simpa using h1, ?_, ?_, ?_⟩
  · intro i d hd
    by_cases hij : j = i
    · subst hij
      simp only [List.getElem?_set_self hlt, Option.some.injEq] at hd
      subst hd; exact h2 j c hc
    · simp only [List.getElem?_set_ne hij] at hd; exact h2 i d hd
  · intro i d hd
    have a := owed_set s r k k' hk i
    have e := hle i
    by_cases hij : j = i
    · subst hij
      simp only [List.getElem?_set_self hlt, Option.some.injEq] at hd
      subst hd
      have b := h3 j c hc
      simp only [if_true, List.length_append, List.length_singleton] at *; omega
    · simp only [List.getElem?_set_ne hij] at hd
      have b := h3 i d hd
      simp only; omega
  · intro i hd
    have a := owed_set s r k k' hk i
    have e := hle i
    by_cases hij : j = i
    · subst hij
      simp only [List.getElem?_set_self hlt] at hd
      cases hd
    · simp only [List.getElem?_set_ne hij] at hd
      have b := h4 i hd
      simp only; omega

theorem budget_step (n : Nat) (s s' : State) (e : Ev) (h : Budget n s) (hst : step s e = some s')
    (hcalm : ∀ r x, e = .answer r x → ∀ k, s.conns[r]? = some k → ¬ k.busyWith x.uuid) : Budget n s' := by
  have h' := h
  obtain ⟨h1, h2, h3, h4⟩ := h
  cases e with
  | call u =>
    injection hst with hst; subst hst
    refine ⟨h1, ?_, ?_, ?_⟩
    · intro i c hc
      simp only [List.getElem?_append] at hc
      split at hc
      · exact h2 i c hc
      · have := List.mem_of_getElem? hc
        simp only [List.mem_singleton] at this
        subst this; simp
    · intro i c hc
      simp only [List.getElem?_append] at hc
      split at hc
      · exact h3 i c hc
      · next hlt =>
        have := List.mem_of_getElem? hc
        simp only [List.mem_singleton] at this
        subst this
        have := h4 i (by simpa using hlt)
        simp [this]
    · intro i hc
      refine h4 i ?_
      simp only [List.getElem?_eq_none_iff, List.length_append, List.length_singleton] at hc ⊢; omega
  | ask i =>
    simp only [step] at hst
    split at hst
    · cases hst
    · next c hc =>
      split at hst
      · cases hst
      · next k hk =>
        injection hst with hst; subst hst
        have hlt := (List.getElem?_eq_some_iff.1 hc).1
        have hlt2 := (List.getElem?_eq_some_iff.1 hk).1
        have hle : ∀ j, owed j { k with live := k.live.insert c.uuid i } ≤ owed j k + if i = j then 1 else 0 := by
          intro j
          unfold owed entries
          cases hcl : k.cleaner with
          | idle => have := cntOf_insert i j k.live c.uuid; simp only; omega
          | notifying v m => have := cntOf_insert_erase i j k.live c.uuid v; simp only; omega
          | deleting v => have := cntOf_insert_erase i j k.live c.uuid v; simp only; omega
        refine ⟨by simpa using h1, ?_, ?_, ?_⟩
        · intro j d hd
          by_cases hij : i = j
          · subst hij
            simp only [List.getElem?_set_self hlt, Option.some.injEq] at hd
            subst hd; simp only; omega
          · simp only [List.getElem?_set_ne hij] at hd; exact h2 j d hd
        · intro j d hd
          have a := owed_set s c.asked k { k with live := k.live.insert c.uuid i } hk j
          have e := hle j
          by_cases hij : i = j
          · subst hij
            simp only [List.getElem?_set_self hlt, Option.some.injEq] at hd
            subst hd
            have b := h3 i c hc
            simp only [if_true] at *; omega
          · simp only [List.getElem?_set_ne hij] at hd
            have b := h3 j d hd
            simp only [hij, if_false] at *; omega
        · intro j hd
          have a := owed_set s c.asked k { k with live := k.live.insert c.uuid i } hk j
          have e := hle j
          by_cases hij : i = j
          · subst hij
            simp only [List.getElem?_set_self hlt] at hd
            cases hd
          · simp only [List.getElem?_set_ne hij] at hd
            have b := h4 j hd
            simp only [hij, if_false] at *; omega
  | answer r x =>
    have hc := hcalm r x rfl
    simp only [step] at hst
    split at hst
    · cases hst
    · next k hk =>
      have hb := hc k hk
      split at hst
      · cases hst
      · next hrecv =>
        split at hst
        · injection hst with hst; subst hst; exact h'
        · next i hl =>
          injection hst with hst; subst hst
          refine budget_conn n s h' r k _ hk ?_
          intro j
          have key : cntOf j (entries { k with live := k.live.erase x.uuid, recv := some (i, x) }) + (if i = j then 1 else 0) ≤ cntOf j (entries k) := by
            have gen : ∀ m : GoMap Str Nat, m.lookup x.uuid = some i → cntOf j (m.erase x.uuid) + (if i = j then 1 else 0) ≤ cntOf j m := by
              intro m hm
              by_cases hij : i = j
              · subst hij; simpa using cntOf_erase i m x.uuid hm
              · simpa [hij] using cntOf_erase_le j m x.uuid
            unfold entries
            cases hcl : k.cleaner with
            | idle => exact gen k.live hl
            | notifying v m =>
              have hne : x.uuid ≠ v := fun h => hb (.inr ⟨m, by rw [hcl, h]⟩)
              simp only [erase_comm k.live x.uuid v]
              exact gen _ (by rw [GoMap.lookup_erase_ne _ hne]; exact hl)
            | deleting v =>
              have hne : x.uuid ≠ v := fun h => hb (.inl (by rw [hcl, h]))
              simp only [erase_comm k.live x.uuid v]
              exact gen _ (by rw [GoMap.lookup_erase_ne _ hne]; exact hl)
          unfold owed
          simp only [hrecv, Option.map_none, Option.map_some, Option.some.injEq, reduceCtorEq, if_false] at key ⊢
          omega
  | hand r =>
    simp only [step] at hst
    split at hst
    · cases hst
    · next k hk =>
      split at hst
      · cases hst
      · next i x hr =>
        split at hst
        · cases hst
        · next cs hcs =>
          injection hst with hst; subst hst
          obtain ⟨c, hc, hl, rfl⟩ := put_some hcs
          refine budget_put n s h' r i k _ c x hk hc ?_
          intro j
          unfold owed entries
          by_cases hij : i = j
          · subst hij; simp [hr]; omega
          · have hij' : ¬ j = i := fun h => hij h.symm
            simp [hr, hij, hij']
  | take i =>
    simp only [step] at hst
    split at hst
    · cases hst
    · next c hc =>
      split at hst
      · cases hst
      · next x q hq =>
        split at hst
        · injection hst with hst; subst hst
          have hlt := (List.getElem?_eq_some_iff.1 hc).1
          refine ⟨h1, ?_, ?_, ?_⟩
          · intro j d hd
            by_cases hij : i = j
            · subst hij
              simp only [List.getElem?_set_self hlt, Option.some.injEq] at hd
              subst hd; exact h2 i c hc
            · simp only [List.getElem?_set_ne hij] at hd; exact h2 j d hd
          · intro j d hd
            by_cases hij : i = j
            · subst hij
              simp only [List.getElem?_set_self hlt, Option.some.injEq] at hd
              subst hd
              have b := h3 i c hc
              simp only [hq, List.length_cons, List.length_append, List.length_nil] at b ⊢; omega
            · simp only [List.getElem?_set_ne hij] at hd; exact h3 j d hd
          · intro j hd
            by_cases hij : i = j
            · subst hij; simp only [List.getElem?_set_self hlt] at hd; cases hd
            · simp only [List.getElem?_set_ne hij] at hd; exact h4 j hd
        · cases hst
  | «return» i =>
    simp only [step] at hst
    split at hst
    · cases hst
    · next c hc =>
      injection hst with hst; subst hst
      have hlt := (List.getElem?_eq_some_iff.1 hc).1
      refine ⟨h1, ?_, ?_, ?_⟩
      · intro j d hd
        by_cases hij : i = j
        · subst hij
          simp only [List.getElem?_set_self hlt, Option.some.injEq] at hd
          subst hd; exact h2 i c hc
        · simp only [List.getElem?_set_ne hij] at hd; exact h2 j d hd
      · intro j d hd
        by_cases hij : i = j
        · subst hij
          simp only [List.getElem?_set_self hlt, Option.some.injEq] at hd
          subst hd; exact h3 i c hc
        · simp only [List.getElem?_set_ne hij] at hd; exact h3 j d hd
      · intro j hd
        by_cases hij : i = j
        · subst hij; simp only [List.getElem?_set_self hlt] at hd; cases hd
        · simp only [List.getElem?_set_ne hij] at hd; exact h4 j hd
  | look r u =>
    simp only [step] at hst
    split at hst
    · cases hst
    · next k hk =>
      split at hst
      · next i hcl hl =>
        injection hst with hst; subst hst
        refine budget_conn n s h' r k _ hk ?_
        intro j
        unfold owed entries
        simp only [hcl]
        by_cases hij : i = j
        · subst hij
          have := cntOf_erase i k.live u hl
          simp only [if_true]; omega
        · have := cntOf_erase_le j k.live u
          simp only [hij, if_false]; omega
      · cases hst
  | notify r =>
    simp only [step] at hst
    split at hst
    · cases hst
    · next k hk =>
      split at hst
      · next u i hcl =>
        split at hst
        · cases hst
        · next cs hcs =>
          injection hst with hst; subst hst
          obtain ⟨c, hc, hl, rfl⟩ := put_some hcs
          refine budget_put n s h' r i k _ c _ hk hc ?_
          intro j
          unfold owed entries
          by_cases hij : i = j
          · subst hij; simp [hcl]
          · have hij' : ¬ j = i := fun h => hij h.symm
            simp [hcl, hij, hij']
      · cases hst
  | delete r =>
    simp only [step] at hst
    split at hst
    · cases hst
    · next k hk =>
      split at hst
      · next u hcl =>
        injection hst with hst; subst hst
        refine budget_conn n s h' r k _ hk ?_
        intro j
        unfold owed entries
        simp [hcl]
      · cases hst
  | cancel r u =>
    simp only [step] at hst
    split at hst
    · cases hst
    · next k hk =>
      injection hst with hst; subst hst
      refine budget_conn n s h' r k _ hk ?_
      intro j
      unfold owed entries
      cases hcl : k.cleaner with
      | idle => have := cntOf_erase_le j k.live u; simp only; omega
      | notifying v m => have := cntOf_erase_le j (k.live.erase v) u; simp only [erase_comm k.live u v]; omega
      | deleting v => have := cntOf_erase_le j (k.live.erase v) u; simp only [erase_comm k.live u v]; omega

theorem budget_init (n : Nat) : Budget n (init n) := by
  refine ⟨by simp [init], by simp [init], by simp [init], ?_⟩
  intro i _
  have h0 : owed i ⟨[], none, .idle⟩ = 0 := rfl
  simp only [init, sumBy, List.map_replicate, h0]
  simp

/-- C86, the part that holds: in every run in which no answer to a call arrives at a connection just while the cleanup goroutine is at the entry of that call, the
receiving goroutine of every connection can always hand over what it has received and take the next answer, and the cleanup goroutine can always go on. Every call gets at
most one message for every request it sent. -/
theorem C86_calm_partial (n : Nat) (evs : List Ev) (s : State) (h : CalmRun n evs s) :
    (∀ (r : Nat) (k : Conn), s.conns[r]? = some k → (k.recv ≠ none → ∃ s', step s (.hand r) = some s') ∧
      (∀ u i, k.cleaner = .notifying u i → ∃ s', step s (.notify r) = some s')) ∧
    ∀ (i : Nat) (c : Call), s.calls[i]? = some c → c.queue.length + c.taken.length ≤ c.asked ∧ c.asked ≤ n := by
  have hboth : Budget n s ∧ Own s := by
    induction h with
    | init => exact ⟨budget_init n, own_init n⟩
    | step evs s s' e _ hst hc ih => exact ⟨budget_step n s s' e ih.1 hst hc, own_step s s' e ih.2 hst⟩
  obtain ⟨⟨h1, h2, h3, h4⟩, ⟨o1, o2, o3, o4⟩⟩ := hboth
  refine ⟨?_, fun i c hc => ⟨by have := h3 i c hc; omega, h2 i c hc⟩⟩
  intro r k hk
  obtain ⟨hlt, hget⟩ := List.getElem?_eq_some_iff.1 hk
  constructor
  · intro hrecv
    cases hx : k.recv with
    | none => exact absurd hx hrecv
    | some v =>
      obtain ⟨i, x⟩ := v
      obtain ⟨c, hc, hu⟩ := o3 r k hk i x hx
      have b := h3 i c hc
      have b2 := h2 i c hc
      have b3 := sum_mem (owed i) s.conns r k hk
      have b4 : 1 ≤ owed i k := by unfold owed; simp [hx]; omega
      have hroom : c.queue.length < s.conns.length := by omega
      obtain ⟨hlt2, hget2⟩ := List.getElem?_eq_some_iff.1 hc
      simp [step, hlt, hget, hx, put, hlt2, hget2, hroom]
  · intro u i hcl
    obtain ⟨c, hc, hu⟩ := o4 r k hk u i hcl
    have b := h3 i c hc
    have b2 := h2 i c hc
    have b3 := sum_mem (owed i) s.conns r k hk
    have b4 : 1 ≤ owed i k := by unfold owed; simp [hcl]
    have hroom : c.queue.length < s.conns.length := by omega
    obtain ⟨hlt2, hget2⟩ := List.getElem?_eq_some_iff.1 hc
    simp [step, hlt, hget, hcl, put, hlt2, hget2, hroom]

/-- Whether the cleanup goroutine is at the entry of `u`. -/
def Conn.busy (k : Conn) (u : Str) : Bool :=
  match k.cleaner with
  | .deleting v => decide (v = u)
  | .notifying v _ => decide (v = u)
  | .idle => false

theorem busy_iff (k : Conn) (u : Str) : k.busyWith u ↔ k.busy u = true := by
  unfold Conn.busyWith Conn.busy
  cases k.cleaner <;> simp

/-- Whether a step is one of a calm run. -/
def calmEv (s : State) : Ev → Bool
  | .answer r x => match s.conns[r]? with
    | none => true
    | some k => !k.busy x.uuid
  | _ => true

/-- A sequence of calm steps. -/
def calmRun (s : State) : List Ev → Option State
  | [] => some s
  | e :: es => if calmEv s e then (step s e).bind fun s' => calmRun s' es else none

theorem calmRun_spec (n : Nat) (evs pre : List Ev) (s s' : State) (h : CalmRun n pre s) (hr : calmRun s evs = some s') : CalmRun n (pre ++ evs) s' := by
  induction evs generalizing pre s with
  | nil => simp only [calmRun, Option.some.injEq] at hr; subst hr; simpa using h
  | cons e evs ih =>
    simp only [calmRun] at hr
    split at hr
    · next hc =>
      cases hst : step s e with
      | none => rw [hst] at hr; cases hr
      | some s1 =>
        rw [hst] at hr
        have := ih (pre ++ [e]) s1 (.step pre s s1 e h hst (by
          rintro r x rfl k hk
          simp only [calmEv, hk] at hc
          rw [busy_iff]
          simpa using hc)) hr
        simpa using this
    · cases hr

/-- A calm run with a time-out: two relays, one answers, the other's entry is cleaned up. -/
example (u : Str) : ∃ s, CalmRun 2 [.call u, .ask 0, .ask 0, .answer 1 (reply u), .hand 1, .look 0 u, .notify 0, .take 0, .take 0] s ∧
    ∃ c, s.calls[0]? = some c ∧ c.taken = [reply u, timeout u] := by
  refine ⟨⟨[⟨[(u, 0)], none, .deleting u⟩, ⟨[], none, .idle⟩], [⟨u, [], 2, true, [reply u, timeout u]⟩]⟩, calmRun_spec 2 _ [] (init 2) _ .init ?_, _, rfl, rfl⟩
  simp [calmRun, calmEv, step, init, put, reply, GoMap.lookup, GoMap.insert, GoMap.erase, List.replicate, Conn.busy]

end Resmix.Rrpc.RelayConn
