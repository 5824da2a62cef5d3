import Verif.Model.DirectClient
import Verif.Proofs.GoMap
set_option autoImplicit false
/-
C61 and C76: direct calls of one client, all interleavings.
-/
namespace Resmix.Rrpc.DirectClient
variable {ρ : Type}

/-- A run in which (a) every request can be sent, (b) call ids are pairwise distinct, and (c) no response arrives for a call while the cleanup
is ending that call. -/
inductive CalmRun (ttl : Nat) : List (Ev ρ) → State ρ → Prop
  | init : CalmRun ttl [] init
  | step (evs : List (Ev ρ)) (s s' : State ρ) (e : Ev ρ) : CalmRun ttl evs s → step ttl s e = some s' → e ≠ .sendFail →
      (∀ u now, e = .call u now → ∀ c ∈ s.calls, c.uuid ≠ u) →
      (∀ u x, e = .respond u x → ∀ i c, s.calls[i]? = some c → s.cleaner = .notifying i ∨ s.cleaner = .deleting i → c.uuid ≠ u) →
      CalmRun ttl (evs ++ [e]) s'

/-- `r` is a result the call `u`, made at `start`, may get after `evs`: that of a response for it, or a time-out because a cleanup found it at least `ttl`
old. -/
def RightResult (ttl : Nat) (evs : List (Ev ρ)) (u : Str) (start : Nat) : Res ρ → Prop
  | .response x => .respond u x ∈ evs
  | .timeout => ∃ now, .visit u now ∈ evs ∧ ¬ now - start < ttl
  | _ => False

theorem RightResult.mono {ttl : Nat} {evs : List (Ev ρ)} {u : Str} {start : Nat} {r : Res ρ} (e : Ev ρ) (h : RightResult ttl evs u start r) :
    RightResult ttl (evs ++ [e]) u start r := by
  cases r with
  | response x => exact List.mem_append_left _ h
  | timeout => obtain ⟨now, h1, h2⟩ := h; exact ⟨now, List.mem_append_left _ h1, h2⟩
  | sendError => exact h
  | closed => exact h

/-- The invariant of calm runs. -/
structure Inv (ttl : Nat) (evs : List (Ev ρ)) (s : State ρ) : Prop where
  up : s.crashed = false
  sender : s.sender = .idle
  inj : ∀ (i j : Nat) (c d : Call ρ), s.calls[i]? = some c → s.calls[j]? = some d → c.uuid = d.uuid → i = j
  look : ∀ u i, s.waiting.lookup u = some i → ∃ c, s.calls[i]? = some c ∧ c.uuid = u
  dispS : ∀ i x, s.disp = .sending i x → ∃ c, s.calls[i]? = some c ∧ s.waiting.lookup c.uuid = none ∧ c.got = none ∧ c.closed = false ∧ .respond c.uuid x ∈ evs
  dispC : ∀ i, s.disp = .closing i → ∃ c, s.calls[i]? = some c ∧ s.waiting.lookup c.uuid = none ∧ c.got ≠ none ∧ c.closed = false
  clN : ∀ i, s.cleaner = .notifying i → ∃ c, s.calls[i]? = some c ∧ s.waiting.lookup c.uuid = some i ∧ c.got = none ∧ c.closed = false ∧
    ∃ now, .visit c.uuid now ∈ evs ∧ ¬ now - c.start < ttl
  clD : ∀ i, s.cleaner = .deleting i → ∃ c, s.calls[i]? = some c ∧ s.waiting.lookup c.uuid = some i ∧ c.got ≠ none ∧ c.closed = false
  pend : ∀ (i : Nat) (c : Call ρ), s.calls[i]? = some c → c.got = none → s.waiting.lookup c.uuid = some i ∨ ∃ x, s.disp = .sending i x
  held : ∀ (i : Nat) (c : Call ρ), s.calls[i]? = some c → s.waiting.lookup c.uuid = some i → (c.got = none ∧ c.closed = false) ∨ s.cleaner = .deleting i
  cl : ∀ (i : Nat) (c : Call ρ), s.calls[i]? = some c → c.closed = true → c.got ≠ none ∧ s.waiting.lookup c.uuid = none
  res : ∀ (i : Nat) (c : Call ρ), s.calls[i]? = some c → ∀ r, c.got = some r → RightResult ttl evs c.uuid c.start r

set_option maxHeartbeats 4000000 in
theorem inv_step (ttl : Nat) (evs : List (Ev ρ)) (s s' : State ρ) (e : Ev ρ) (h : Inv ttl evs s) (hst : step ttl s e = some s') (h1 : e ≠ .sendFail)
    (h2 : ∀ u now, e = .call u now → ∀ c ∈ s.calls, c.uuid ≠ u)
    (h3 : ∀ u x, e = .respond u x → ∀ i c, s.calls[i]? = some c → s.cleaner = .notifying i ∨ s.cleaner = .deleting i → c.uuid ≠ u) : Inv ttl (evs ++ [e]) s' := by
  obtain ⟨up, sender, inj, look, dispS, dispC, clN, clD, pend, held, cl, res⟩ := h
  have mono : ∀ u t r, RightResult ttl evs u t r → RightResult ttl (evs ++ [e]) u t r := fun u t r h => h.mono e
  have mem : ∀ x : Ev ρ, x ∈ evs → x ∈ evs ++ [e] := fun x h => List.mem_append_left _ h
  have mem' : e ∈ evs ++ [e] := by simp
  unfold step at hst
  rw [up] at hst
  simp only [Bool.false_eq_true, if_false] at hst
  cases e with
  | sendFail => exact absurd rfl h1
  | reportFail => rw [sender] at hst; cases hst
  | sendOk =>
    rw [sender] at hst
    simp only at hst
    split at hst
    · injection hst with hst; subst hst
      constructor <;> grind
    · cases hst
  | enqueue i =>
    simp only at hst
    split at hst
    · injection hst with hst; subst hst
      constructor <;> grind
    · cases hst
  | await i =>
    simp only at hst
    split at hst
    · cases hst
    · next c hc =>
      injection hst with hst; subst hst
      constructor <;> grind
  | readClosed i =>
    simp only at hst
    split at hst
    · cases hst
    · next c hc =>
      split at hst
      · next hh => exact absurd (cl i c hc hh.2.2).1 (by simpa using hh.2.1)
      · cases hst
  | call u now =>
    simp only at hst
    have hf : ∀ (i : Nat) (c : Call ρ), s.calls[i]? = some c → c.uuid ≠ u := fun i c hc => h2 u now rfl c (List.mem_of_getElem? hc)
    have hl : ∀ (i : Nat) (c : Call ρ), s.calls[i]? = some c → i < s.calls.length := fun i c hc => (List.getElem?_eq_some_iff.1 hc).1
    have hu : s.waiting.lookup u = none := by
      cases hlk : s.waiting.lookup u with
      | none => rfl
      | some i => obtain ⟨c, hc, hcu⟩ := look u i hlk; exact absurd hcu (hf i c hc)
    injection hst with hst; subst hst
    constructor <;> try grind [GoMap.lookup_insert]
    case look =>
      intro v i hv
      simp only [GoMap.lookup_insert] at hv
      split at hv
      · next hvu =>
        injection hv with hv; subst hv
        exact ⟨{ uuid := u, start := now, closed := false, awaiting := false, got := none }, by simp, hvu.symm⟩
      · obtain ⟨c, hc, hcu⟩ := look v i hv
        exact ⟨c, by simp only; rw [List.getElem?_append_left (hl i c hc)]; exact hc, hcu⟩
  | respond u x =>
    simp only at hst
    split at hst
    · split at hst
      · injection hst with hst; subst hst
        constructor <;> grind
      · next i hi =>
        injection hst with hst; subst hst
        constructor <;> try grind [GoMap.lookup_erase]
        case pend =>
          intro j c hc hg
          simp only at hc ⊢
          by_cases hu : c.uuid = u
          · obtain ⟨d, hd, hdu⟩ := look u i hi
            have := inj j i c d hc hd (by rw [hu, hdu])
            subst this
            exact .inr ⟨x, rfl⟩
          · rw [GoMap.lookup_erase, if_neg hu]
            rcases pend j c hc hg with h | ⟨y, h⟩
            · exact .inl h
            · simp_all
    · cases hst
  | dispatch =>
    simp only at hst
    split at hst
    · next i x hd =>
      simp only [deliver] at hst
      split at hst
      · cases hst
      · split at hst
        · grind
        · split at hst
          · injection hst with hst; subst hst
            constructor <;> grind [RightResult]
          · cases hst
    · cases hst
  | close =>
    simp only at hst
    split at hst
    · next i hd =>
      split at hst
      · cases hst
      · split at hst
        · grind
        · injection hst with hst; subst hst
          constructor <;> grind
    · cases hst
  | visit u now =>
    simp only at hst
    split at hst
    · split at hst
      · injection hst with hst; subst hst
        constructor <;> grind
      · split at hst
        · cases hst
        · split at hst
          · injection hst with hst; subst hst
            constructor <;> grind
          · injection hst with hst; subst hst
            constructor <;> grind
    · cases hst
  | notify =>
    simp only at hst
    split at hst
    · next i hd =>
      simp only [deliver] at hst
      split at hst
      · cases hst
      · split at hst
        · grind
        · split at hst
          · injection hst with hst; subst hst
            constructor <;> grind [RightResult]
          · cases hst
    · cases hst
  | delete =>
    simp only at hst
    split at hst
    · next i hd =>
      split at hst
      · cases hst
      · injection hst with hst; subst hst
        constructor <;> grind [GoMap.lookup_erase]
    · cases hst

theorem calm_inv (ttl : Nat) (evs : List (Ev ρ)) (s : State ρ) (h : CalmRun ttl evs s) : Inv ttl evs s := by
  induction h with
  | init => constructor <;> simp [init]
  | step evs s s' e _ hst h1 h2 h3 ih => exact inv_step ttl evs s s' e ih hst h1 h2 h3

/-- C61, partial: in every calm run, the client does not crash; every result a caller has got is that of a response for his call or a time-out of a call
at least `ttl` old; and a call without a result is still in the table or its response is being handed over, so that once the table is empty
and the receiving goroutine is idle every call has got its one result. -/
theorem C61_calm_partial (ttl : Nat) (evs : List (Ev ρ)) (s : State ρ) (h : CalmRun ttl evs s) :
    s.crashed = false ∧
    (∀ (i : Nat) (c : Call ρ), s.calls[i]? = some c → ∀ r, c.got = some r → RightResult ttl evs c.uuid c.start r) ∧
    (∀ (i : Nat) (c : Call ρ), s.calls[i]? = some c → c.got = none → s.waiting.lookup c.uuid = some i ∨ ∃ x, s.disp = .sending i x) ∧
    (s.waiting = [] → s.disp = .idle → ∀ (i : Nat) (c : Call ρ), s.calls[i]? = some c → ∃ r, c.got = some r ∧ RightResult ttl evs c.uuid c.start r) := by
  obtain ⟨up, sender, inj, look, dispS, dispC, clN, clD, pend, held, cl, res⟩ := calm_inv ttl evs s h
  refine ⟨up, res, pend, ?_⟩
  intro hw hd i c hc
  cases hg : c.got with
  | none =>
    rcases pend i c hc hg with h | ⟨x, h⟩
    · rw [hw] at h; cases h
    · rw [hd] at h; cases h
  | some r => exact ⟨r, rfl, res i c hc r hg⟩

theorem set_get {α : Type} (l : List α) (i : Nat) (a : α) (h : i < l.length) : (l.set i a)[i]? = some a := by simp [h]

/-- C61 fails, a crash: any running client with a pending call of age `ttl` that its caller waits for. The cleanup looks at the entry and is about to send
the time-out; the response arrives, its result is handed over and the channel closed; the cleanup sends on the closed channel. -/
theorem C61_crash_refuted (ttl now i : Nat) (s : State ρ) (c : Call ρ) (x : ρ) (hup : s.crashed = false) (hd : s.disp = .idle) (hcl : s.cleaner = .idle)
    (hc : s.calls[i]? = some c) (hw : s.waiting.lookup c.uuid = some i) (ho : c.closed = false) (ha : c.awaiting = true) (hg : c.got = none)
    (hold : c.start + ttl ≤ now) :
    ∃ s', run ttl s [.visit c.uuid now, .respond c.uuid x, .dispatch, .close, .notify] = some s' ∧ s'.crashed = true := by
  obtain ⟨hi, hc'⟩ := List.getElem?_eq_some_iff.1 hc
  have hnot : ¬ now - c.start < ttl := by omega
  simp [run, step, deliver, hup, hd, hcl, hi, hc', hw, ho, ha, hg, hnot]

/-- The same from the start, for a single call that is never late to be read. -/
theorem C61_from_start_refuted (ttl : Nat) (u : Str) (x : ρ) :
    ∃ s', run ttl init [.call u 0, .enqueue 0, .await 0, .sendOk, .visit u ttl, .respond u x, .dispatch, .close, .notify] = some s' ∧ s'.crashed = true := by
  simp [run, step, deliver, init, GoMap.insert, GoMap.lookup, GoMap.erase]

/-- The user of call `i` has its result already. -/
def Taken (s : State ρ) (i : Nat) : Prop := ∃ c, s.calls[i]? = some c ∧ c.got ≠ none ∧ c.closed = false

theorem taken_step (ttl : Nat) (s s' : State ρ) (e : Ev ρ) (i : Nat) (h : Taken s i) (hd : s.disp ≠ .closing i) (hst : step ttl s e = some s') :
    Taken s' i ∧ (s'.disp ≠ .closing i) ∧ (∀ x, s.disp = .sending i x → s'.disp = .sending i x) ∧ (s.cleaner = .notifying i → s'.cleaner = .notifying i) := by
  obtain ⟨c, hc, hg, ho⟩ := h
  unfold step at hst
  split at hst
  · cases hst
  · have hl : ∀ (j : Nat) (c : Call ρ), s.calls[j]? = some c → j < s.calls.length := fun j c hc => (List.getElem?_eq_some_iff.1 hc).1
    cases e with
    | call u now =>
      injection hst with hst; subst hst
      exact ⟨⟨c, by simp only; rw [List.getElem?_append_left (hl i c hc)]; exact hc, hg, ho⟩, hd, fun x h => h, fun h => h⟩
    | enqueue j => grind [Taken]
    | await j => grind [Taken]
    | readClosed j => grind [Taken]
    | sendOk => grind [Taken]
    | sendFail => grind [Taken]
    | reportFail => grind [Taken, deliver]
    | respond u x => grind [Taken]
    | dispatch =>
      simp only at hst
      split at hst
      · next j y hdj'=>
        simp only [deliver] at hst
        split at hst
        · cases hst
        · next d hdj =>
          split at hst
          · injection hst with hst; subst hst
            exact ⟨⟨c, hc, hg, ho⟩, hd, fun x h => h, fun h => h⟩
          · split at hst
            · next hh =>
              have hij : j ≠ i := by
                rintro rfl
                rw [hc] at hdj; injection hdj with hdj; subst hdj
                cases hgc : c.got with
                | none => exact hg hgc
                | some r => rw [hgc] at hh; simp at hh
              injection hst with hst; subst hst
              refine ⟨⟨c, by simp only; rw [List.getElem?_set_ne hij]; exact hc, hg, ho⟩, ?_, ?_, ?_⟩ <;> grind
            · cases hst
      · cases hst
    | close => grind [Taken]
    | visit u now => grind [Taken]
    | notify =>
      simp only at hst
      split at hst
      · next j hdj' =>
        simp only [deliver] at hst
        split at hst
        · cases hst
        · next d hdj =>
          split at hst
          · injection hst with hst; subst hst
            exact ⟨⟨c, hc, hg, ho⟩, hd, fun x h => h, fun h => h⟩
          · split at hst
            · next hh =>
              have hij : j ≠ i := by
                rintro rfl
                rw [hc] at hdj; injection hdj with hdj; subst hdj
                cases hgc : c.got with
                | none => exact hg hgc
                | some r => rw [hgc] at hh; simp at hh
              injection hst with hst; subst hst
              refine ⟨⟨c, by simp only; rw [List.getElem?_set_ne hij]; exact hc, hg, ho⟩, ?_, ?_, ?_⟩ <;> grind
            · cases hst
      · cases hst
    | delete => grind [Taken]

theorem taken_run (ttl : Nat) (evs : List (Ev ρ)) (s s' : State ρ) (i : Nat) (h : Taken s i) (hd : s.disp ≠ .closing i) (hr : run ttl s evs = some s') :
    (∀ x, s.disp = .sending i x → s'.disp = .sending i x) ∧ (s.cleaner = .notifying i → s'.cleaner = .notifying i) := by
  induction evs generalizing s with
  | nil => simp only [run, Option.some.injEq] at hr; subst hr; exact ⟨fun x h => h, fun h => h⟩
  | cons e evs ih =>
    rw [run] at hr
    cases hst : step ttl s e with
    | none => rw [hst] at hr; cases hr
    | some s1 =>
      rw [hst] at hr
      obtain ⟨h1, h2, h3, h4⟩ := taken_step ttl s s1 e i h hd hst
      obtain ⟨i1, i2⟩ := ih s1 h1 h2 hr
      exact ⟨fun x h => i1 x (h3 x h), fun h => i2 (h4 h)⟩

/-- C61 fails, a client that never dispatches again: the response of a pending call of age `ttl` arrives after its time-out was handed over and before
its entry was deleted. Whatever happens then, the receiving goroutine stays where it is. -/
theorem C61_stuck_refuted (ttl now i : Nat) (s : State ρ) (c : Call ρ) (x : ρ) (hup : s.crashed = false) (hd : s.disp = .idle) (hcl : s.cleaner = .idle)
    (hc : s.calls[i]? = some c) (hw : s.waiting.lookup c.uuid = some i) (ho : c.closed = false) (ha : c.awaiting = true) (hg : c.got = none)
    (hold : c.start + ttl ≤ now) :
    ∃ s1, run ttl s [.visit c.uuid now, .notify, .respond c.uuid x] = some s1 ∧ s1.crashed = false ∧
      ∀ evs s2, run ttl s1 evs = some s2 → s2.disp = .sending i x := by
  obtain ⟨hi, hc'⟩ := List.getElem?_eq_some_iff.1 hc
  have hnot : ¬ now - c.start < ttl := by omega
  refine ⟨{ s with calls := s.calls.set i { c with got := some .timeout }, waiting := s.waiting.erase c.uuid, disp := .sending i x, cleaner := .deleting i, crashed := false }, ?_, rfl, ?_⟩
  · simp [run, step, deliver, hup, hd, hcl, hi, hc', hw, ho, ha, hg, hnot]
  · intro evs s2 h2
    refine (taken_run ttl evs _ s2 i ⟨{ c with got := some .timeout }, by simp [hi], by simp, ho⟩ (by simp) h2).1 x rfl

/-- C76 fails, a request that cannot be sent: its caller gets the error, its entry stays. When the cleanup finds it old enough it waits for ever to send the
time-out, whatever happens: no call ever times out again. -/
theorem C76_unsent_refuted (ttl : Nat) (u : Str) :
    ∃ s1 : State ρ, run ttl init [.call u 0, .enqueue 0, .await 0, .sendFail, .reportFail, .visit u ttl] = some s1 ∧
      ∀ evs s2, run ttl s1 evs = some s2 → s2.cleaner = .notifying 0 := by
  refine ⟨{ calls := [⟨u, 0, false, true, some .sendError⟩], waiting := [(u, 0)], queue := [], disp := .idle, sender := .idle, cleaner := .notifying 0, crashed := false }, ?_, ?_⟩
  · simp [run, step, deliver, init, GoMap.insert, GoMap.lookup, GoMap.erase]
  · intro evs s2 h
    exact (taken_run ttl evs _ s2 0 ⟨⟨u, 0, false, true, some .sendError⟩, rfl, by simp, rfl⟩ (by simp) h).2 rfl

/-- C76 fails, a result that is never read: while the caller of `i` does not receive, whatever else happens, the receiving goroutine waits with it, and no
other call gets a response. -/
theorem C76_unread_refuted (ttl i : Nat) (s : State ρ) (x : ρ) (c : Call ρ) (hd : s.disp = .sending i x) (hc : s.calls[i]? = some c) (ha : c.awaiting = false) (ho : c.closed = false)
    (evs : List (Ev ρ)) (hev : .await i ∉ evs) (s' : State ρ) (hr : run ttl s evs = some s') :
    s'.disp = .sending i x ∧ ∀ (j : Nat) (d : Call ρ) (y : ρ), s'.calls[j]? = some d → d.got = some (.response y) → ∃ d0, s.calls[j]? = some d0 ∧ d0.got = some (.response y) := by
  induction evs generalizing s c with
  | nil =>
    simp only [run, Option.some.injEq] at hr; subst hr
    exact ⟨hd, fun j d y h1 h2 => ⟨d, h1, h2⟩⟩
  | cons e evs ih =>
    rw [run] at hr
    cases hst : step ttl s e with
    | none => rw [hst] at hr; cases hr
    | some s1 =>
      rw [hst] at hr
      have hne : e ≠ .await i := fun h => hev (by rw [h]; exact List.mem_cons_self)
      have key : s1.disp = .sending i x ∧ (∃ c1, s1.calls[i]? = some c1 ∧ c1.awaiting = false ∧ c1.closed = false) ∧
          ∀ (j : Nat) (d : Call ρ) (y : ρ), s1.calls[j]? = some d → d.got = some (.response y) → ∃ d0, s.calls[j]? = some d0 ∧ d0.got = some (.response y) := by
        unfold step at hst
        split at hst
        · cases hst
        · have hl : ∀ (j : Nat) (c : Call ρ), s.calls[j]? = some c → j < s.calls.length := fun j c hc => (List.getElem?_eq_some_iff.1 hc).1
          cases e with
          | call u now =>
            injection hst with hst; subst hst
            refine ⟨hd, ⟨c, by simp only; rw [List.getElem?_append_left (hl i c hc)]; exact hc, ha, ho⟩, ?_⟩
            grind
          | enqueue j => grind
          | await j => grind
          | readClosed j => grind
          | sendOk => grind
          | sendFail => grind
          | reportFail => grind [deliver]
          | respond u x => grind
          | dispatch => grind [deliver]
          | close => grind
          | visit u now => grind
          | notify => grind [deliver]
          | delete => grind
      obtain ⟨k1, ⟨c1, k2, k3, k4⟩, k5⟩ := key
      obtain ⟨i1, i2⟩ := ih s1 c1 k1 k2 k3 k4 (fun h => hev (List.mem_cons_of_mem _ h)) hr
      refine ⟨i1, fun j d y h1 h2 => ?_⟩
      obtain ⟨d0, e1, e2⟩ := i2 j d y h1 h2
      exact k5 j d0 y e1 e2

/-- C76, partial: in every calm run all of whose callers wait for their results, the receiving goroutine can always finish what it is doing and take the next
response, and the cleanup goroutine can always finish with its entry. -/
theorem C76_calm_partial (ttl : Nat) (evs : List (Ev ρ)) (s : State ρ) (h : CalmRun ttl evs s) (hall : ∀ c ∈ s.calls, c.awaiting = true) :
    (∃ fin, (fin = [] ∨ fin = [.close] ∨ fin = [.dispatch, .close]) ∧ ∃ s', run ttl s fin = some s' ∧ s'.crashed = false ∧ s'.disp = .idle) ∧
    (∃ fin, (fin = [] ∨ fin = [.delete] ∨ fin = [.notify, .delete]) ∧ ∃ s', run ttl s fin = some s' ∧ s'.crashed = false ∧ s'.cleaner = .idle) := by
  obtain ⟨up, sender, inj, look, dispS, dispC, clN, clD, pend, held, cl, res⟩ := calm_inv ttl evs s h
  constructor
  · cases hd : s.disp with
    | idle => exact ⟨[], .inl rfl, s, rfl, up, hd⟩
    | sending i x =>
      obtain ⟨c, h1, h2, h3, h4, -⟩ := dispS i x hd
      obtain ⟨hi, hc'⟩ := List.getElem?_eq_some_iff.1 h1
      have ha := hall c (List.mem_of_getElem? h1)
      refine ⟨[.dispatch, .close], .inr (.inr rfl), ?_⟩
      simp [run, step, deliver, up, hd, hi, hc', h3, h4, ha]
    | closing i =>
      obtain ⟨c, h1, h2, h3, h4⟩ := dispC i hd
      obtain ⟨hi, hc'⟩ := List.getElem?_eq_some_iff.1 h1
      refine ⟨[.close], .inr (.inl rfl), ?_⟩
      simp [run, step, up, hd, hi, hc', h4]
  · cases hd : s.cleaner with
    | idle => exact ⟨[], .inl rfl, s, rfl, up, hd⟩
    | notifying i =>
      obtain ⟨c, h1, h2, h3, h4, -⟩ := clN i hd
      obtain ⟨hi, hc'⟩ := List.getElem?_eq_some_iff.1 h1
      have ha := hall c (List.mem_of_getElem? h1)
      refine ⟨[.notify, .delete], .inr (.inr rfl), ?_⟩
      simp [run, step, deliver, up, hd, hi, hc', h3, h4, ha]
    | deleting i =>
      obtain ⟨c, h1, h2, h3, h4⟩ := clD i hd
      obtain ⟨hi, hc'⟩ := List.getElem?_eq_some_iff.1 h1
      refine ⟨[.delete], .inr (.inl rfl), ?_⟩
      simp [run, step, up, hd, hi, hc']

/-- The conditions of `CalmRun` for the steps from `s`. -/
def CalmFrom (ttl : Nat) : State ρ → List (Ev ρ) → Prop
  | _, [] => True
  | s, e :: es => e ≠ .sendFail ∧ (∀ u now, e = .call u now → ∀ c ∈ s.calls, c.uuid ≠ u) ∧
      (∀ u x, e = .respond u x → ∀ i c, s.calls[i]? = some c → s.cleaner = .notifying i ∨ s.cleaner = .deleting i → c.uuid ≠ u) ∧
      ∀ s', step ttl s e = some s' → CalmFrom ttl s' es

theorem calm_of_run (ttl : Nat) (pre evs : List (Ev ρ)) (s s' : State ρ) (h : CalmRun ttl pre s) (hc : CalmFrom ttl s evs) (hr : run ttl s evs = some s') :
    CalmRun ttl (pre ++ evs) s' := by
  induction evs generalizing s pre with
  | nil => simp only [run, Option.some.injEq] at hr; subst hr; simpa using h
  | cons e evs ih =>
    rw [run] at hr
    cases hst : step ttl s e with
    | none => rw [hst] at hr; cases hr
    | some s1 =>
      rw [hst] at hr
      obtain ⟨h1, h2, h3, h4⟩ := hc
      have := ih (pre ++ [e]) s1 (.step pre s s1 e h hst h1 h2 h3) (h4 s1 hst) hr
      simpa using this

/-- A calm run with two calls: one gets its response, the other a time-out. -/
example (u v : Str) (huv : u ≠ v) (x : ρ) : ∃ evs s, CalmRun 5 evs s ∧ s.waiting = [] ∧ s.disp = .idle ∧
    (s.calls.map fun c => (c.uuid, c.got)) = [(u, some (.response x)), (v, some .timeout)] := by
  refine ⟨[.call u 0, .enqueue 0, .await 0, .sendOk, .call v 1, .enqueue 1, .await 1, .sendOk, .respond u x, .dispatch, .close, .visit v 9, .notify, .delete],
    { calls := [⟨u, 0, true, true, some (.response x)⟩, ⟨v, 1, false, true, some .timeout⟩], waiting := [], queue := [], disp := .idle, sender := .idle, cleaner := .idle, crashed := false },
    calm_of_run 5 [] _ init _ .init ?_ ?_, rfl, rfl, rfl⟩
  · simp [CalmFrom, step, deliver, init, GoMap.insert, GoMap.lookup, GoMap.erase, huv, huv.symm]
  · simp [run, step, deliver, init, GoMap.insert, GoMap.lookup, GoMap.erase, huv, huv.symm]

end Resmix.Rrpc.DirectClient
