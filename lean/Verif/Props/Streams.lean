import Verif.Model.Streams
import Mathlib.Data.List.Basic
set_option autoImplicit false
/-
C75: a relay whose stream fails. C81: a relay that does not take its responses.
-/
namespace Resmix.Rrpc.Streams
variable {α : Type}

theorem run_append (s : State α) (a b : List (Ev α)) : run s (a ++ b) = (run s a).bind fun s' => run s' b := by
  induction a generalizing s with
  | nil => rfl
  | cons e a ih =>
    simp only [List.cons_append, run]
    cases step s e with
    | none => rfl
    | some s' => exact ih s'

/-- C75 fails. In any state of a running server in which some stream of relay `r` is broken (its sender goroutine still waiting), the channel of
`r` is open and empty, the next two responses for `r` crash the server: the first makes the sender goroutine close the channel, the
second is sent on the closed channel. -/
theorem C75_crash_refuted (s : State α) (r j : Nat) (x y : α) (hs : s.crashed = false) (hc : s.chans[r]? = some { queue := [], closed := false })
    (hj : s.senders[j]? = some ⟨r, true, false⟩) :
    ∃ s', run s [.start [(r, x)], .send s.procs.length, .deliver j, .start [(r, y)], .send (s.procs.length + 1)] = some s' ∧ s'.crashed = true := by
  obtain ⟨hr, hr'⟩ := List.getElem?_eq_some_iff.1 hc
  obtain ⟨hjl, hj'⟩ := List.getElem?_eq_some_iff.1 hj
  simp [run, step, hs, hr, hr', hjl, hj', capacity]

/-- C75 fails from the start: relay 0 connects, its stream breaks, two replies are sent. -/
theorem C75_from_start_refuted (n : Nat) (hn : 0 < n) (x y : α) :
    ∃ s', run (init n) [.connect 0, .breaks 0, .start [(0, x)], .send 0, .deliver 0, .start [(0, y)], .send 1] = some s' ∧ s'.crashed = true := by
  obtain ⟨m, rfl⟩ : ∃ m, n = m + 1 := ⟨n - 1, by omega⟩
  simp [run, step, init, capacity, List.replicate_succ]

/-- C81 fails. If the channel of relay `r` is full and relay `r` has no sender goroutine (it never connected), then whatever the other
goroutines, streams and relays do, as long as `r` does not connect, a reply goroutine whose next send is to `r` never gets past it:
the relays after `r` never get this reply. -/
theorem C81_full_channel_refuted (s : State α) (r p : Nat) (x : α) (rest : List (Nat × α)) (c : Chan α) (hc : s.chans[r]? = some c) (hop : c.closed = false)
    (hfull : capacity ≤ c.queue.length) (hp : s.procs[p]? = some ((r, x) :: rest)) (hnone : ∀ g ∈ s.senders, g.relay ≠ r)
    (evs : List (Ev α)) (hev : ∀ e ∈ evs, e ≠ .connect r) (s' : State α) (hrun : run s evs = some s') :
    s'.procs[p]? = some ((r, x) :: rest) := by
  induction evs generalizing s with
  | nil => simp only [run, Option.some.injEq] at hrun; rw [← hrun]; exact hp
  | cons e evs ih =>
    rw [run] at hrun
    cases hst : step s e with
    | none => rw [hst] at hrun; cases hrun
    | some s1 =>
      rw [hst] at hrun
      simp only at hrun
      have hr : r < s.chans.length := (List.getElem?_eq_some_iff.1 hc).1
      have key : s1.chans[r]? = some c ∧ s1.procs[p]? = some ((r, x) :: rest) ∧ ∀ g ∈ s1.senders, g.relay ≠ r := by
        unfold step at hst
        split at hst
        · cases hst
        · cases e with
          | connect r' =>
            simp only at hst
            split at hst
            · injection hst with hst; subst hst
              refine ⟨hc, hp, ?_⟩
              intro g hg
              rcases List.mem_append.1 hg with hg | hg
              · exact hnone g hg
              · rw [List.mem_singleton.1 hg]
                intro h
                exact hev _ List.mem_cons_self (by rw [show r' = r from h])
            · cases hst
          | breaks j =>
            simp only at hst
            split at hst
            · cases hst
            · next g hg =>
              injection hst with hst; subst hst
              refine ⟨hc, hp, ?_⟩
              intro g' hg'
              rcases List.mem_or_eq_of_mem_set hg' with h | h
              · exact hnone g' h
              · rw [h]; exact hnone g (List.mem_of_getElem? hg)
          | start sends =>
            simp only at hst
            injection hst with hst; subst hst
            refine ⟨hc, ?_, hnone⟩
            rw [List.getElem?_append_left (List.getElem?_eq_some_iff.1 hp).1]; exact hp
          | send p' =>
            simp only at hst
            split at hst
            · next r' x' rest' hp' =>
              split at hst
              · injection hst with hst; subst hst; exact ⟨hc, hp, hnone⟩
              · next c' hc' =>
                split at hst
                · injection hst with hst; subst hst; exact ⟨hc, hp, hnone⟩
                · split at hst
                  · next hlt =>
                    injection hst with hst; subst hst
                    have hne : r' ≠ r := by
                      rintro rfl
                      rw [hc] at hc'
                      injection hc' with hc'
                      subst hc'; omega
                    have hpp : p' ≠ p := by
                      rintro rfl
                      rw [hp] at hp'
                      injection hp' with hp'
                      injection hp' with h1 h2
                      injection h1 with h1 h3
                      exact hne h1.symm
                    refine ⟨?_, ?_, hnone⟩
                    · simp only; rw [List.getElem?_set_ne hne]; exact hc
                    · simp only; rw [List.getElem?_set_ne hpp]; exact hp
                  · cases hst
            · cases hst
          | deliver j =>
            simp only at hst
            split at hst
            · cases hst
            · next g hg =>
              have hgr := hnone g (List.mem_of_getElem? hg)
              split at hst
              · cases hst
              · split at hst
                · cases hst
                · next c' hc' =>
                  split at hst
                  · cases hst
                  · split at hst
                    · split at hst
                      · injection hst with hst; subst hst; exact ⟨hc, hp, hnone⟩
                      · injection hst with hst; subst hst
                        refine ⟨by simp only; rw [List.getElem?_set_ne hgr]; exact hc, hp, ?_⟩
                        intro g' hg'
                        rcases List.mem_or_eq_of_mem_set hg' with h | h
                        · exact hnone g' h
                        · rw [h]; exact hgr
                    · injection hst with hst; subst hst
                      exact ⟨by simp only; rw [List.getElem?_set_ne hgr]; exact hc, hp, hnone⟩
          | finish j =>
            simp only at hst
            split at hst
            · cases hst
            · next g hg =>
              have hgr := hnone g (List.mem_of_getElem? hg)
              split at hst
              · cases hst
              · split at hst
                · cases hst
                · split at hst
                  · injection hst with hst; subst hst
                    refine ⟨hc, hp, ?_⟩
                    intro g' hg'
                    rcases List.mem_or_eq_of_mem_set hg' with h | h
                    · exact hnone g' h
                    · rw [h]; exact hgr
                  · cases hst
      exact ih s1 key.1 key.2.1 key.2.2 (fun e he => hev e (List.mem_cons_of_mem _ he)) hrun

/-- The state of C81 is reached: relay 0 never connects, 100 replies were sent to it. -/
theorem full_channel_reachable (n : Nat) (hn : 0 < n) (x : α) : ∀ k ≤ capacity, ∃ s, run (init n) ((List.range k).flatMap fun i => [.start [(0, x)], .send i]) = some s ∧
    s.chans[0]? = some { queue := List.replicate k x, closed := false } ∧ s.senders = [] ∧ s.procs.length = k ∧ s.crashed = false ∧ s.chans.length = n := by
  intro k
  induction k with
  | zero =>
    intro _
    refine ⟨init n, rfl, ?_, rfl, rfl, rfl, by simp [init]⟩
    simp [init, hn]
  | succ k ih =>
    intro hk
    obtain ⟨s, h1, h2, h3, h4, h5, h6⟩ := ih (by omega)
    rw [List.range_succ, List.flatMap_append, run_append, h1]
    simp only [Option.bind_some, List.flatMap_cons, List.flatMap_nil, List.append_nil, run, step, h5]
    simp only [Bool.false_eq_true, if_false, List.length_append]
    rw [List.getElem?_append_right (by omega)]
    simp only [h4, Nat.sub_self, List.getElem?_cons_zero, h2, Bool.false_eq_true, if_false]
    rw [if_pos (by rw [List.length_replicate]; omega)]
    refine ⟨_, rfl, ?_, h3, by simp [h4], rfl, by simp [h6]⟩
    simp only
    rw [List.getElem?_set_self (by omega), List.replicate_succ']

/-- What the goroutines that were started want sent to relay `r`. -/
def wanted (r : Nat) : List (Ev α) → List α
  | [] => []
  | .start sends :: es => (sends.filter fun m => m.1 == r).map Prod.snd ++ wanted r es
  | _ :: es => wanted r es

/-- What is still to be sent to relay `r` by goroutines. -/
def pending (s : State α) (r : Nat) : List α := s.procs.flatMap fun l => (l.filter fun m => m.1 == r).map Prod.snd

/-- What was given to `Send` for relay `r`. -/
def delivered (s : State α) (r : Nat) : List α := (s.sent.filter fun m => m.1 == r).map Prod.snd

/-- What waits in the channel of relay `r`. -/
def waiting (s : State α) (r : Nat) : List α := match s.chans[r]? with | some c => c.queue | none => []

theorem perm_flatMap_set {β γ : Type} (f : β → List γ) (l : List β) (i : Nat) (b b' : β) (x : List γ) (h : l[i]? = some b) (hb : (f b).Perm (x ++ f b')) :
    (l.flatMap f).Perm (x ++ (l.set i b').flatMap f) := by
  induction l generalizing i with
  | nil => cases h
  | cons a l ih =>
    cases i with
    | zero =>
      simp only [List.getElem?_cons_zero, Option.some.injEq] at h
      subst h
      simp only [List.flatMap_cons, List.set_cons_zero, ← List.append_assoc]
      exact hb.append_right _
    | succ i =>
      simp only [List.getElem?_cons_succ] at h
      simp only [List.flatMap_cons, List.set_cons_succ]
      refine ((ih i h).append_left _).trans ?_
      rw [← List.append_assoc, ← List.append_assoc]
      exact List.perm_append_comm.append_right _

/-- An invariant of servers all of whose streams stay up. -/
structure Healthy (n : Nat) (s : State α) : Prop where
  up : s.crashed = false
  len : s.chans.length = n
  opened : ∀ c ∈ s.chans, c.closed = false
  live : ∀ g ∈ s.senders, g.broken = false ∧ g.done = false
  targets : ∀ l ∈ s.procs, ∀ m ∈ l, m.1 < n

/-- C75, partial: as long as no stream fails, no interleaving of streams being opened, goroutines sending replies and sender goroutines taking
them crashes the server, and no response is lost, duplicated or given to another relay: at any time what was sent on relay `r`'s
streams, what waits in its channel and what goroutines still have to send to it is, with multiplicities, what they wanted sent to it. -/
theorem C75_healthy_partial (n : Nat) (evs : List (Ev α)) (s : State α) (hrun : run (init n) evs = some s)
    (hok : ∀ e ∈ evs, match e with | .breaks _ => False | .start sends => ∀ m ∈ sends, m.1 < n | _ => True) :
    s.crashed = false ∧ ∀ r, (delivered s r ++ waiting s r ++ pending s r).Perm (wanted r evs) := by
  have key : ∀ (evs : List (Ev α)) (s0 s : State α), Healthy n s0 → run s0 evs = some s →
      (∀ e ∈ evs, match e with | .breaks _ => False | .start sends => ∀ m ∈ sends, m.1 < n | _ => True) →
      Healthy n s ∧ ∀ r, (delivered s r ++ waiting s r ++ pending s r).Perm (delivered s0 r ++ waiting s0 r ++ pending s0 r ++ wanted r evs) := by
    intro evs
    induction evs with
    | nil =>
      intro s0 s h0 hr _
      simp only [run, Option.some.injEq] at hr
      subst hr
      exact ⟨h0, fun r => by simp [wanted]⟩
    | cons e evs ih =>
      intro s0 s h0 hr hok
      rw [run] at hr
      cases hst : step s0 e with
      | none => rw [hst] at hr; cases hr
      | some s1 =>
        rw [hst] at hr
        simp only at hr
        have he := hok e List.mem_cons_self
        have key : Healthy n s1 ∧ ∀ r, (delivered s1 r ++ waiting s1 r ++ pending s1 r).Perm (delivered s0 r ++ waiting s0 r ++ pending s0 r ++ wanted r [e]) := by
          obtain ⟨hup, hlen, hop, hlive, htar⟩ := h0
          unfold step at hst
          rw [hup] at hst
          simp only [Bool.false_eq_true, if_false] at hst
          cases e with
          | connect r' =>
            simp only at hst
            split at hst
            · injection hst with hst; subst hst
              refine ⟨⟨rfl, hlen, hop, ?_, htar⟩, fun r => by simp [wanted, delivered, waiting, pending]⟩
              intro g hg
              rcases List.mem_append.1 hg with hg | hg
              · exact hlive g hg
              · rw [List.mem_singleton.1 hg]; exact ⟨rfl, rfl⟩
            · cases hst
          | breaks j => exact he.elim
          | start sends =>
            simp only at hst
            injection hst with hst; subst hst
            refine ⟨⟨rfl, hlen, hop, hlive, ?_⟩, ?_⟩
            · intro l hl
              rcases List.mem_append.1 hl with hl | hl
              · exact htar l hl
              · rw [List.mem_singleton.1 hl]; exact he
            · intro r
              simp [wanted, delivered, waiting, pending, List.flatMap_append]
          | send p' =>
            simp only at hst
            split at hst
            · next r' x' rest' hp' =>
              have hr' : r' < s0.chans.length := by
                rw [hlen]; exact htar _ (List.mem_of_getElem? hp') (r', x') List.mem_cons_self
              rw [List.getElem?_eq_getElem hr'] at hst
              simp only [hop _ (List.getElem_mem hr'), Bool.false_eq_true, if_false] at hst
              split at hst
              · injection hst with hst; subst hst
                refine ⟨⟨rfl, by simp [hlen], ?_, hlive, ?_⟩, ?_⟩
                · intro c hc
                  rcases List.mem_or_eq_of_mem_set hc with h | h
                  · exact hop c h
                  · rw [h]
                · intro l hl
                  rcases List.mem_or_eq_of_mem_set hl with h | h
                  · exact htar l h
                  · rw [h]; exact fun m hm => htar _ (List.mem_of_getElem? hp') m (List.mem_cons_of_mem _ hm)
                · intro r
                  simp only [wanted, List.append_nil]
                  by_cases hrr : r' = r
                  · subst hrr
                    have hpp : (pending s0 r').Perm ([x'] ++ (s0.procs.set p' rest').flatMap fun l => (l.filter fun m => m.1 == r').map Prod.snd) :=
                      perm_flatMap_set _ _ _ _ _ _ hp' (by simp)
                    have hw : waiting s0 r' = s0.chans[r'].queue := by simp [waiting, hr']
                    have hw' : ∀ s1 : State α, s1.chans = s0.chans.set r' { queue := s0.chans[r'].queue ++ [x'], closed := false } → waiting s1 r' = s0.chans[r'].queue ++ [x'] := by
                      intro s1 h; simp [waiting, h, hr']
                    rw [hw, hw' _ rfl]
                    simp only [delivered, pending, List.append_assoc] at hpp ⊢
                    exact ((hpp.append_left _).append_left _).symm
                  · have hpp : (pending s0 r).Perm ([] ++ (s0.procs.set p' rest').flatMap fun l => (l.filter fun m => m.1 == r).map Prod.snd) :=
                      perm_flatMap_set _ _ _ _ _ _ hp' (by simp [hrr])
                    have hw : ∀ s1 : State α, s1.chans = s0.chans.set r' { queue := s0.chans[r'].queue ++ [x'], closed := false } → waiting s1 r = waiting s0 r := by
                      intro s1 h; simp [waiting, h, List.getElem?_set_ne hrr]
                    rw [hw _ rfl]
                    simp only [delivered, pending, List.nil_append] at hpp ⊢
                    exact (hpp.append_left _).symm
              · cases hst
            · cases hst
          | deliver j =>
            simp only at hst
            split at hst
            · cases hst
            · next g hg =>
              obtain ⟨hb, hd⟩ := hlive g (List.mem_of_getElem? hg)
              rw [hd, hb] at hst
              simp only [Bool.false_eq_true, if_false] at hst
              split at hst
              · cases hst
              · next c hc =>
                obtain ⟨hgl, hgc⟩ := List.getElem?_eq_some_iff.1 hc
                split at hst
                · cases hst
                · next x q hq =>
                  injection hst with hst; subst hst
                  refine ⟨⟨rfl, by simp [hlen], ?_, hlive, htar⟩, ?_⟩
                  · intro c' hc'
                    rcases List.mem_or_eq_of_mem_set hc' with h | h
                    · exact hop c' h
                    · rw [h]; exact hop c (List.mem_of_getElem? hc)
                  · intro r
                    simp only [wanted, List.append_nil]
                    by_cases hrr : g.relay = r
                    · subst hrr
                      simp [delivered, waiting, pending, hgl, hgc, hq, List.filter_append]
                    · simp [delivered, waiting, pending, List.filter_append, hrr, List.getElem?_set_ne hrr]
          | finish j =>
            simp only at hst
            split at hst
            · cases hst
            · next g hg =>
              obtain ⟨hb, hd⟩ := hlive g (List.mem_of_getElem? hg)
              rw [hd] at hst
              simp only [Bool.false_eq_true, if_false] at hst
              split at hst
              · cases hst
              · next c hc =>
                simp [hop c (List.mem_of_getElem? hc)] at hst
        obtain ⟨k1, k2⟩ := key
        obtain ⟨i1, i2⟩ := ih s1 s k1 hr (fun e he => hok e (List.mem_cons_of_mem _ he))
        refine ⟨i1, fun r => (i2 r).trans ?_⟩
        have : wanted r (e :: evs) = wanted r [e] ++ wanted r evs := by
          cases e <;> simp [wanted]
        rw [this, ← List.append_assoc]
        exact (k2 r).append_right _
  have h0 : Healthy n (init n : State α) := by
    refine ⟨rfl, by simp [init], ?_, by simp [init], by simp [init]⟩
    intro c hc
    rw [List.eq_of_mem_replicate hc]
  obtain ⟨h1, h2⟩ := key evs _ s h0 hrun hok
  refine ⟨h1.up, fun r => (h2 r).trans ?_⟩
  have : waiting (init n : State α) r = [] := by
    unfold waiting init
    simp only
    split
    · next c hc => rw [List.eq_of_mem_replicate (List.mem_of_getElem? hc)]
    · rfl
  rw [this]
  simp [delivered, pending, init]

/-- C81, partial: in a server all of whose streams are up, a send to a relay whose channel has room is always possible, whatever the others
do. -/
theorem C81_room_partial (n : Nat) (s : State α) (h : Healthy n s) (p r : Nat) (x : α) (rest : List (Nat × α)) (hp : s.procs[p]? = some ((r, x) :: rest))
    (hroom : (waiting s r).length < capacity) :
    ∃ s', step s (.send p) = some s' ∧ Healthy n s' ∧ s'.procs[p]? = some rest := by
  obtain ⟨hup, hlen, hop, hlive, htar⟩ := h
  have hr : r < s.chans.length := by rw [hlen]; exact htar _ (List.mem_of_getElem? hp) (r, x) List.mem_cons_self
  have hcl := hop _ (List.getElem_mem hr)
  have hpl := (List.getElem?_eq_some_iff.1 hp).1
  have hroom' : s.chans[r].queue.length < capacity := by simpa [waiting, hr] using hroom
  refine ⟨{ s with chans := s.chans.set r { s.chans[r] with queue := s.chans[r].queue ++ [x] }, procs := s.procs.set p rest }, ?_, ⟨hup, by simp [hlen], ?_, hlive, ?_⟩, by simp [hpl]⟩
  · unfold step
    simp only [hup, Bool.false_eq_true, if_false, hp, List.getElem?_eq_getElem hr, hcl, hroom', if_true]
  · intro c hc
    rcases List.mem_or_eq_of_mem_set hc with h | h
    · exact hop c h
    · rw [h]; exact hcl
  · intro l hl
    rcases List.mem_or_eq_of_mem_set hl with h | h
    · exact htar l h
    · rw [h]; exact fun m hm => htar _ (List.mem_of_getElem? hp) m (List.mem_cons_of_mem _ hm)

/-- A run of that kind: two relays connect, two replies go to both, each relay gets both. -/
example (a b : α) : ∃ s, run (init 2) [.connect 0, .start [(0, a), (1, a)], .start [(0, b), (1, b)], .send 1, .send 0, .deliver 0, .connect 1, .send 0, .send 1, .deliver 1, .deliver 1, .deliver 0] = some s ∧
    delivered s 0 = [b, a] ∧ delivered s 1 = [a, b] := ⟨_, rfl, rfl, rfl⟩

/-- The hypotheses of C81_full_channel_refuted: relay 1 never connects; after 101 replies its channel is full and the goroutine of the last one waits. -/
example (a : α) : ∃ s, run (init 2) (.connect 0 :: .start (List.replicate 101 (1, a)) :: List.replicate 100 (.send 0)) = some s ∧
    (∃ c, s.chans[1]? = some c ∧ c.closed = false ∧ capacity ≤ c.queue.length) ∧ s.procs[0]? = some [(1, a)] ∧ ∀ g ∈ s.senders, g.relay ≠ 1 := by
  have key : ∀ k j, j + k = 100 → run (⟨[⟨[], false⟩, ⟨List.replicate j a, false⟩], [⟨0, false, false⟩], [List.replicate (101 - j) (1, a)], [], false⟩ : State α) (List.replicate k (.send 0)) =
      some ⟨[⟨[], false⟩, ⟨List.replicate 100 a, false⟩], [⟨0, false, false⟩], [[(1, a)]], [], false⟩ := by
    intro k
    induction k with
    | zero => intro j hj; obtain rfl : j = 100 := by omega
              rfl
    | succ k ih =>
      intro j hj
      have h1 : 101 - j = (101 - (j + 1)) + 1 := by omega
      have h2 : j < capacity := by unfold capacity; omega
      rw [List.replicate_succ, run, h1, List.replicate_succ]
      have := ih (j + 1) (by omega)
      simpa [step, h2, ← List.replicate_succ'] using this
  have start : ∀ (l : List (Nat × α)) (evs : List (Ev α)), run (init 2) (.connect 0 :: .start l :: evs) = run ⟨[⟨[], false⟩, ⟨[], false⟩], [⟨0, false, false⟩], [l], [], false⟩ evs := by
    intro l evs
    simp [run, step, init, List.replicate]
  refine ⟨_, (start _ _).trans (key 100 0 rfl), ⟨_, rfl, rfl, ?_⟩, rfl, ?_⟩
  · simp [capacity]
  · simp

end Resmix.Rrpc.Streams
