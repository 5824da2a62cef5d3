import Verif.Proofs.DirectSystemC
set_option autoImplicit false
/-
Calls whose id is used again while they are pending, and connections whose handler has returned.
-/
namespace Resmix.Rrpc.DirectSystem
open Resmix.Merkle
variable {ζ μ : Type} {cfg : Config ζ μ} {s s' : State ζ μ} {e : Event ζ μ} {A : List Nat}

/-- Every caller waits for his result. -/
def AllWait (s : State ζ μ) : Prop := ∀ c ∈ s.client.calls, c.awaiting = true

theorem allWait_set {l : List (DirectClient.Call Outcome)} (h : ∀ c ∈ l, c.awaiting = true) {i : Nat} {c' : DirectClient.Call Outcome} (hc : c'.awaiting = true) :
    ∀ c ∈ l.set i c', c.awaiting = true := by
  intro c hm
  rcases List.mem_or_eq_of_mem_set hm with hm | rfl
  · exact h c hm
  · exact hc

/-- Steps of the connection's own make no calls and no caller stop waiting. -/
theorem own_client (he : e.Own = true) (hst : step cfg s e = some s') (h : AllWait s) : AllWait s' ∧ s'.client.calls.length = s.client.calls.length := by
  have key : ∀ (ev : DirectClient.Ev Outcome) (c : DirectClient.State Outcome), (∀ u n, ev ≠ .call u n) → DirectClient.step cfg.ttl s.client ev = some c →
      (∀ x ∈ c.calls, x.awaiting = true) ∧ c.calls.length = s.client.calls.length := by
    intro ev c hne hc
    unfold DirectClient.step DirectClient.deliver at hc
    have hg : ∀ (i : Nat) (x : DirectClient.Call Outcome), s.client.calls[i]? = some x → x.awaiting = true := fun i x hx => h x (List.mem_of_getElem? hx)
    split at hc
    · cases hc
    cases ev with
    | call u n => exact (hne u n rfl).elim
    | _ =>
      dsimp only at hc
      repeat' split at hc
      all_goals first
        | cases hc; done
        | (injection hc with hc; subst hc; exact ⟨h, rfl⟩)
        | (injection hc with hc; subst hc; exact ⟨allWait_set h (by first | rfl | (dsimp only; exact hg _ _ (by assumption))), by simp⟩)
  have loc : ∀ (ev : DirectClient.Ev Outcome), (∀ u n, ev ≠ .call u n) → local' cfg s ev = some s' → AllWait s' ∧ s'.client.calls.length = s.client.calls.length := by
    intro ev hne hl
    obtain ⟨c, hc, rfl⟩ := local_eq hl
    exact key ev c hne hc
  cases e with
  | call => cases he
  | await => cases he
  | visit => cases he
  | enqueue i =>
    simp only [step] at hst
    repeat' split at hst
    all_goals first | cases hst; done | skip
    rename_i c hc
    injection hst with hst; subst hst
    exact key _ c (by simp) hc
  | readClosed i => exact loc _ (by simp) hst
  | send =>
    simp only [step] at hst
    repeat' split at hst
    all_goals first | cases hst; done | exact loc _ (by simp) hst | skip
    rename_i c hc
    injection hst with hst; subst hst
    exact key _ c (by simp) hc
  | sendFails =>
    simp only [step] at hst
    split at hst
    · exact loc _ (by simp) hst
    · cases hst
  | reportFail => exact loc _ (by simp) hst
  | recv =>
    simp only [step] at hst
    repeat' split at hst
    all_goals first | cases hst; done | skip
    injection hst with hst; subst hst; exact ⟨h, rfl⟩
  | serve hd cache =>
    simp only [step] at hst
    repeat' split at hst
    all_goals first | cases hst; done | skip
    injection hst with hst; subst hst; exact ⟨h, rfl⟩
  | receive cache =>
    simp only [step] at hst
    repeat' split at hst
    all_goals first | cases hst; done | (injection hst with hst; subst hst; exact ⟨h, rfl⟩) | skip
    rename_i c hc
    injection hst with hst; subst hst
    exact key _ c (by simp) hc
  | recvFails =>
    simp only [step] at hst
    repeat' split at hst
    all_goals first | cases hst; done | skip
    injection hst with hst; subst hst; exact ⟨h, rfl⟩
  | dispatch => exact loc _ (by simp) hst
  | close => exact loc _ (by simp) hst
  | notify => exact loc _ (by simp) hst
  | delete => exact loc _ (by simp) hst

theorem own_clients {es : List (Event ζ μ)} (hr : GoodRun cfg s es s') (he : ∀ e ∈ es, e.Own = true) (h : AllWait s) :
    AllWait s' ∧ s'.client.calls.length = s.client.calls.length := by
  induction hr with
  | nil => exact ⟨h, rfl⟩
  | cons hst hg _ ih =>
    have h1 := own_client (he _ List.mem_cons_self) hst h
    have h2 := ih (fun e he' => he e (List.mem_cons_of_mem _ he')) h1.1
    exact ⟨h2.1, h2.2.trans h1.2⟩

/-- Call `i` was sent, and nothing in the client refers to it any more. -/
structure Forgotten (s : State ζ μ) (i : Nat) : Prop where
  sent : i ∈ s.entered
  queue : i ∉ s.client.queue
  lt : ∃ c, s.client.calls[i]? = some c ∧ c.got = none ∧ c.closed = false
  wait : ∀ u, s.client.waiting.lookup u ≠ some i
  disp : ∀ x, s.client.disp ≠ .sending i x
  dispC : s.client.disp ≠ .closing i
  sender : s.client.sender ≠ .failing i
  cleaner : s.client.cleaner ≠ .notifying i

theorem lookup_erase_imp {m : GoMap Str Nat} {u v : Str} {i : Nat} (h : (m.erase u).lookup v = some i) : m.lookup v = some i := by
  by_cases hu : v = u
  · subst hu; rw [GoMap.lookup_erase_self] at h; cases h
  · rwa [GoMap.lookup_erase_ne _ hu] at h

/-- What a step of the client does to a forgotten call: nothing. -/
theorem forgotten_client {c c' : DirectClient.State Outcome} {ttl i : Nat} {ev : DirectClient.Ev Outcome} (hst : DirectClient.step ttl c ev = some c') (hev : ev ≠ .enqueue i)
    (hq : i ∉ c.queue) (hl : ∃ x, c.calls[i]? = some x ∧ x.got = none ∧ x.closed = false) (hw : ∀ u, c.waiting.lookup u ≠ some i) (hd : ∀ x, c.disp ≠ .sending i x)
    (hdC : c.disp ≠ .closing i) (hs : c.sender ≠ .failing i) (hcl : c.cleaner ≠ .notifying i) :
    i ∉ c'.queue ∧ (∃ x, c'.calls[i]? = some x ∧ x.got = none ∧ x.closed = false) ∧ (∀ u, c'.waiting.lookup u ≠ some i) ∧ (∀ x, c'.disp ≠ .sending i x) ∧
      c'.disp ≠ .closing i ∧ c'.sender ≠ .failing i ∧ c'.cleaner ≠ .notifying i := by
  obtain ⟨x, hx, hx2, hx3⟩ := hl
  have hlt := (List.getElem?_eq_some_iff.1 hx).1
  have hset : ∀ (j : Nat) (d : DirectClient.Call Outcome), j ≠ i → (∃ x, (c.calls.set j d)[i]? = some x ∧ x.got = none ∧ x.closed = false) := by
    intro j d hj
    exact ⟨x, by rw [List.getElem?_set_ne hj]; exact hx, hx2, hx3⟩
  have dlv : ∀ (j : Nat) (r : DirectClient.Res Outcome) (t : DirectClient.State Outcome), j ≠ i → t.calls = c.calls → t.queue = c.queue → t.waiting = c.waiting →
      (∀ x, t.disp ≠ .sending i x) → t.disp ≠ .closing i → t.sender ≠ .failing i → t.cleaner ≠ .notifying i → DirectClient.deliver c j r t = some c' → 
      i ∉ c'.queue ∧ (∃ x, c'.calls[i]? = some x ∧ x.got = none ∧ x.closed = false) ∧ (∀ u, c'.waiting.lookup u ≠ some i) ∧ (∀ x, c'.disp ≠ .sending i x) ∧
      c'.disp ≠ .closing i ∧ c'.sender ≠ .failing i ∧ c'.cleaner ≠ .notifying i := by
    intro j r t hj h1 h2 h3 h4 h5 h6 h7 hdl
    unfold DirectClient.deliver at hdl
    split at hdl
    · cases hdl
    split at hdl
    · injection hdl with hdl; subst hdl; exact ⟨hq, ⟨x, hx, hx2, hx3⟩, hw, hd, hdC, hs, hcl⟩
    split at hdl
    · injection hdl with hdl; subst hdl
      dsimp only
      rw [h1, h2, h3]
      exact ⟨hq, hset j _ hj, hw, h4, h5, h6, h7⟩
    · cases hdl
  unfold DirectClient.step at hst
  split at hst
  · cases hst
  cases ev with
  | call u n =>
    injection hst with hst; subst hst
    refine ⟨hq, ⟨x, by dsimp only; rw [List.getElem?_append_left hlt]; exact hx, hx2, hx3⟩, ?_, hd, hdC, hs, hcl⟩
    intro v hv
    dsimp only at hv
    by_cases hu : v = u
    · subst hu
      rw [GoMap.lookup_insert_self] at hv
      injection hv with hv; omega
    · rw [GoMap.lookup_insert_ne _ _ hu] at hv; exact hw v hv
  | enqueue j =>
    dsimp only at hst
    split at hst
    · injection hst with hst; subst hst
      refine ⟨?_, ⟨x, hx, hx2, hx3⟩, hw, hd, hdC, hs, hcl⟩
      intro hm
      rcases List.mem_append.1 hm with hm | hm
      · exact hq hm
      · simp at hm; subst hm; exact hev rfl
    · cases hst
  | await j =>
    dsimp only at hst
    split at hst
    · cases hst
    rename_i d hdj
    injection hst with hst; subst hst
    refine ⟨hq, ?_, hw, hd, hdC, hs, hcl⟩
    by_cases hj : j = i
    · subst hj
      rw [hx] at hdj; injection hdj with hdj; subst hdj
      exact ⟨_, List.getElem?_set_self hlt, hx2, hx3⟩
    · exact hset j _ hj
  | readClosed j =>
    dsimp only at hst
    split at hst
    · cases hst
    rename_i d hdj
    split at hst
    on_goal 2 => cases hst
    rename_i hh
    injection hst with hst; subst hst
    refine ⟨hq, ?_, hw, hd, hdC, hs, hcl⟩
    by_cases hj : j = i
    · subst hj
      rw [hx] at hdj; injection hdj with hdj; subst hdj
      rw [hx3] at hh; cases hh.2.2
    · exact hset j _ hj
  | sendOk =>
    dsimp only at hst
    split at hst
    on_goal 2 => cases hst
    rename_i j q h1 h2
    injection hst with hst; subst hst
    exact ⟨fun hm => hq (by rw [h2]; exact List.mem_cons_of_mem _ hm), ⟨x, hx, hx2, hx3⟩, hw, hd, hdC, hs, hcl⟩
  | sendFail =>
    dsimp only at hst
    split at hst
    on_goal 2 => cases hst
    rename_i j q h1 h2
    injection hst with hst; subst hst
    refine ⟨fun hm => hq (by rw [h2]; exact List.mem_cons_of_mem _ hm), ⟨x, hx, hx2, hx3⟩, hw, hd, hdC, ?_, hcl⟩
    intro hh
    injection hh with hh; subst hh
    exact hq (by rw [h2]; exact List.mem_cons_self)
  | reportFail =>
    dsimp only at hst
    split at hst
    · cases hst
    rename_i j h1
    exact dlv j _ { c with sender := .idle } (by rintro rfl; exact hs h1) rfl rfl rfl hd hdC (by simp) hcl hst
  | respond u r =>
    dsimp only at hst
    split at hst
    on_goal 2 => cases hst
    split at hst
    · injection hst with hst; subst hst; exact ⟨hq, ⟨x, hx, hx2, hx3⟩, hw, hd, hdC, hs, hcl⟩
    rename_i j hj
    injection hst with hst; subst hst
    refine ⟨hq, ⟨x, hx, hx2, hx3⟩, fun v hv => hw v (lookup_erase_imp hv), ?_, by simp, hs, hcl⟩
    intro r' hr'
    injection hr' with hr'; subst hr'
    exact hw u hj
  | dispatch =>
    dsimp only at hst
    split at hst
    on_goal 2 => cases hst
    rename_i j r h1
    have hj : j ≠ i := by rintro rfl; exact hd r h1
    exact dlv j _ { c with disp := .closing j } hj rfl rfl rfl (by simp) (by simpa using hj) hs hcl hst
  | close =>
    dsimp only at hst
    split at hst
    on_goal 2 => cases hst
    rename_i j h1
    have hj : j ≠ i := by rintro rfl; exact hdC h1
    split at hst
    · cases hst
    split at hst
    · injection hst with hst; subst hst; exact ⟨hq, ⟨x, hx, hx2, hx3⟩, hw, hd, hdC, hs, hcl⟩
    · injection hst with hst; subst hst
      exact ⟨hq, hset j _ hj, hw, by simp, by simp, hs, hcl⟩
  | visit u n =>
    dsimp only at hst
    split at hst
    on_goal 2 => cases hst
    split at hst
    · injection hst with hst; subst hst; exact ⟨hq, ⟨x, hx, hx2, hx3⟩, hw, hd, hdC, hs, hcl⟩
    rename_i j hj
    split at hst
    · cases hst
    split at hst
    · injection hst with hst; subst hst; exact ⟨hq, ⟨x, hx, hx2, hx3⟩, hw, hd, hdC, hs, hcl⟩
    · injection hst with hst; subst hst
      refine ⟨hq, ⟨x, hx, hx2, hx3⟩, hw, hd, hdC, hs, ?_⟩
      intro hh
      injection hh with hh; subst hh
      exact hw u hj
  | notify =>
    dsimp only at hst
    split at hst
    on_goal 2 => cases hst
    rename_i j h1
    exact dlv j _ { c with cleaner := .deleting j } (by rintro rfl; exact hcl h1) rfl rfl rfl hd hdC hs (by simp) hst
  | delete =>
    dsimp only at hst
    split at hst
    on_goal 2 => cases hst
    split at hst
    · cases hst
    injection hst with hst; subst hst
    exact ⟨hq, ⟨x, hx, hx2, hx3⟩, fun v hv => hw v (lookup_erase_imp hv), hd, hdC, hs, by simp⟩

theorem Forgotten.local_ {i : Nat} {ev : DirectClient.Ev Outcome} {c' : DirectClient.State Outcome} (h : Forgotten s i) (hst : DirectClient.step cfg.ttl s.client ev = some c')
    (hev : ev ≠ .enqueue i) (t : State ζ μ) (ht : t.client = c') (hte : i ∈ t.entered) : Forgotten t i := by
  obtain ⟨h1, h2, h3, h4, h5, h6, h7⟩ := forgotten_client hst hev h.queue h.lt h.wait h.disp h.dispC h.sender h.cleaner
  subst ht
  exact ⟨hte, h1, h2, h3, h4, h5, h6, h7⟩

/-- A forgotten call stays forgotten, whatever happens. -/
theorem Forgotten.stepped {i : Nat} (h : Forgotten s i) (hst : step cfg s e = some s') : Forgotten s' i := by
  have loc : ∀ ev : DirectClient.Ev Outcome, ev ≠ .enqueue i → local' cfg s ev = some s' → Forgotten s' i := by
    intro ev hne hl
    obtain ⟨c, hc, rfl⟩ := local_eq hl
    exact h.local_ hc hne _ rfl h.sent
  cases e with
  | call u n m a =>
    simp only [step] at hst
    split at hst
    · cases hst
    rename_i c hc
    injection hst with hst; subst hst
    exact h.local_ hc (by simp) _ rfl h.sent
  | enqueue j =>
    simp only [step] at hst
    split at hst
    · cases hst
    rename_i hne
    split at hst
    · cases hst
    rename_i c hc
    injection hst with hst; subst hst
    exact h.local_ hc (by rintro ⟨⟩; exact hne h.sent) _ rfl (by simp [h.sent])
  | await j => exact loc _ (by simp) hst
  | readClosed j => exact loc _ (by simp) hst
  | send =>
    simp only [step] at hst
    repeat' split at hst
    all_goals first | cases hst; done | exact loc _ (by simp) hst | skip
    rename_i c hc
    injection hst with hst; subst hst
    exact h.local_ hc (by simp) _ rfl h.sent
  | sendFails =>
    simp only [step] at hst
    split at hst
    · exact loc _ (by simp) hst
    · cases hst
  | reportFail => exact loc _ (by simp) hst
  | recv =>
    simp only [step] at hst
    repeat' split at hst
    all_goals first | cases hst; done | skip
    injection hst with hst; subst hst
    exact ⟨h.sent, h.queue, h.lt, h.wait, h.disp, h.dispC, h.sender, h.cleaner⟩
  | serve hd cache =>
    simp only [step] at hst
    repeat' split at hst
    all_goals first | cases hst; done | skip
    injection hst with hst; subst hst
    exact ⟨h.sent, h.queue, h.lt, h.wait, h.disp, h.dispC, h.sender, h.cleaner⟩
  | receive cache =>
    simp only [step] at hst
    repeat' split at hst
    all_goals first | cases hst; done | skip
    · injection hst with hst; subst hst
      exact ⟨h.sent, h.queue, h.lt, h.wait, h.disp, h.dispC, h.sender, h.cleaner⟩
    · rename_i c hc
      injection hst with hst; subst hst
      exact h.local_ hc (by simp) _ rfl h.sent
  | recvFails =>
    simp only [step] at hst
    repeat' split at hst
    all_goals first | cases hst; done | skip
    injection hst with hst; subst hst
    exact ⟨h.sent, h.queue, h.lt, h.wait, h.disp, h.dispC, h.sender, h.cleaner⟩
  | dispatch => exact loc _ (by simp) hst
  | close => exact loc _ (by simp) hst
  | visit u n => exact loc _ (by simp) hst
  | notify => exact loc _ (by simp) hst
  | delete => exact loc _ (by simp) hst

theorem Forgotten.run {i : Nat} {es : List (Event ζ μ)} (h : Forgotten s i) (hr : Run cfg s es s') : Forgotten s' i := by
  induction hr with
  | nil => exact h
  | cons hst _ ih => exact ih (h.stepped hst)

/-- A pending call is forgotten when its id is used again. -/
theorem Inv.forget (h : Inv cfg s A) {i : Nat} {c : DirectClient.Call Outcome} (hc : s.client.calls[i]? = some c) (hsent : i ∈ s.entered) (hq : i ∉ s.client.queue)
    (hw : s.client.waiting.lookup c.uuid = some i) {now : Nat} {m : Str} {a : Bytes} (hst : step cfg s (.call c.uuid now m a) = some s') : Forgotten s' i := by
  have hal := h.alive
  have hiA := (h.look _ _ hw).1
  obtain ⟨-, h2, h3⟩ := h.wait i c hc hiA
  have hlt := (List.getElem?_eq_some_iff.1 hc).1
  simp only [step, DirectClient.step, hal, Bool.false_eq_true, if_false, Option.some.injEq] at hst
  subst hst
  refine ⟨hsent, hq, ⟨c, by dsimp only; rw [List.getElem?_append_left hlt]; exact hc, h2, h3⟩, ?_, ?_, ?_, ?_, ?_⟩
  · intro v hv
    dsimp only at hv
    by_cases hu : v = c.uuid
    · subst hu; rw [GoMap.lookup_insert_self] at hv; injection hv with hv; omega
    · rw [GoMap.lookup_insert_ne _ _ hu] at hv
      obtain ⟨-, c', k1, k2⟩ := h.look v i hv
      rw [hc] at k1; injection k1 with k1; subst k1; exact hu k2.symm
  · intro x hx; exact hiA (h.dispS i x hx).1
  · intro hx; exact hiA (h.dispC i hx).1
  · dsimp only; rw [h.sender]; simp
  · dsimp only; rw [h.cleaner]; simp

/-- The server's handler has returned, and no response is on its way. -/
structure Dead (s : State ζ μ) (runs : List (Ran ζ μ)) (resp : List Nat) : Prop where
  ended : s.ended = true
  serving : s.serving = none
  down : s.down = []
  disp : ∀ i x, s.client.disp ≠ .sending i x
  runs : s.runs = runs
  resp : ∀ (i : Nat) (c : DirectClient.Call Outcome) (x : Outcome), s.client.calls[i]? = some c → c.got = some (.response x) → i ∈ resp

theorem dead_client {c c' : DirectClient.State Outcome} {ttl : Nat} {resp : List Nat} {ev : DirectClient.Ev Outcome} (hst : DirectClient.step ttl c ev = some c')
    (hev : ∀ u x, ev ≠ .respond u x) (hd : ∀ i x, c.disp ≠ .sending i x)
    (hr : ∀ (i : Nat) (y : DirectClient.Call Outcome) (x : Outcome), c.calls[i]? = some y → y.got = some (.response x) → i ∈ resp) :
    (∀ i x, c'.disp ≠ .sending i x) ∧ ∀ (i : Nat) (y : DirectClient.Call Outcome) (x : Outcome), c'.calls[i]? = some y → y.got = some (.response x) → i ∈ resp := by
  have hset : ∀ (j : Nat) (d : DirectClient.Call Outcome), (∀ x, d.got = some (.response x) → j ∈ resp) →
      ∀ (i : Nat) (y : DirectClient.Call Outcome) (x : Outcome), (c.calls.set j d)[i]? = some y → y.got = some (.response x) → i ∈ resp := by
    intro j d hj i y x hy hx
    rw [List.getElem?_set] at hy
    split at hy
    · rename_i h; subst h
      split at hy
      · injection hy with hy; subst hy; exact hj x hx
      · cases hy
    · exact hr i y x hy hx
  unfold DirectClient.step DirectClient.deliver at hst
  split at hst
  · cases hst
  cases ev with
  | respond u x => exact (hev u x rfl).elim
  | call u n =>
    injection hst with hst; subst hst
    refine ⟨hd, ?_⟩
    intro i y x hy hx
    dsimp only at hy
    rcases Nat.lt_trichotomy i c.calls.length with hlt | heq | hgt
    · rw [List.getElem?_append_left hlt] at hy; exact hr i y x hy hx
    · subst heq; simp at hy; subst hy; cases hx
    · rw [List.getElem?_eq_none (by simp; omega)] at hy; cases hy
  | await j =>
    dsimp only at hst
    split at hst
    · cases hst
    rename_i d hdj
    injection hst with hst; subst hst
    exact ⟨hd, hset j _ (fun x hx => hr j d x hdj hx)⟩
  | dispatch =>
    dsimp only at hst
    split at hst
    · rename_i i x h1; exact (hd i x h1).elim
    · cases hst
  | close =>
    dsimp only at hst
    split at hst
    on_goal 2 => cases hst
    rename_i j h1
    split at hst
    · cases hst
    rename_i d hdj
    split at hst
    · injection hst with hst; subst hst; exact ⟨hd, hr⟩
    · injection hst with hst; subst hst
      exact ⟨by simp, hset j _ (fun x hx => hr j d x hdj hx)⟩
  | _ =>
    dsimp only at hst
    repeat' split at hst
    all_goals first
      | cases hst; done
      | (injection hst with hst; subst hst; exact ⟨hd, hr⟩)
      | (injection hst with hst; subst hst; exact ⟨hd, hset _ _ (by intro x hx; cases hx)⟩)

theorem Dead.stepped {runs : List (Ran ζ μ)} {resp : List Nat} (h : Dead s runs resp) (hst : step cfg s e = some s') : Dead s' runs resp := by
  have loc : ∀ ev : DirectClient.Ev Outcome, (∀ u x, ev ≠ .respond u x) → local' cfg s ev = some s' → Dead s' runs resp := by
    intro ev hne hl
    obtain ⟨c, hc, rfl⟩ := local_eq hl
    obtain ⟨h1, h2⟩ := dead_client hc hne h.disp h.resp
    exact ⟨h.ended, h.serving, h.down, h1, h.runs, h2⟩
  cases e with
  | call u n m a =>
    simp only [step] at hst
    split at hst
    · cases hst
    rename_i c hc
    injection hst with hst; subst hst
    obtain ⟨h1, h2⟩ := dead_client hc (by simp) h.disp h.resp
    exact ⟨h.ended, h.serving, h.down, h1, h.runs, h2⟩
  | enqueue j =>
    simp only [step] at hst
    repeat' split at hst
    all_goals first | cases hst; done | skip
    rename_i c hc
    injection hst with hst; subst hst
    obtain ⟨h1, h2⟩ := dead_client hc (by simp) h.disp h.resp
    exact ⟨h.ended, h.serving, h.down, h1, h.runs, h2⟩
  | await j => exact loc _ (by simp) hst
  | readClosed j => exact loc _ (by simp) hst
  | send =>
    simp only [step, h.ended, if_true] at hst
    repeat' split at hst
    all_goals first | cases hst; done | exact loc _ (by simp) hst
  | sendFails =>
    simp only [step] at hst
    split at hst
    · exact loc _ (by simp) hst
    · cases hst
  | reportFail => exact loc _ (by simp) hst
  | recv =>
    simp only [step, h.ended, if_true] at hst
    split at hst <;> cases hst
  | serve hd cache =>
    simp only [step, h.serving] at hst
    cases hst
  | receive cache =>
    simp only [step, h.down] at hst
    split at hst <;> cases hst
  | recvFails =>
    simp only [step] at hst
    repeat' split at hst
    all_goals first | cases hst; done | skip
    injection hst with hst; subst hst
    exact ⟨h.ended, h.serving, h.down, h.disp, h.runs, h.resp⟩
  | dispatch => exact loc _ (by simp) hst
  | close => exact loc _ (by simp) hst
  | visit u n => exact loc _ (by simp) hst
  | notify => exact loc _ (by simp) hst
  | delete => exact loc _ (by simp) hst

theorem Dead.run {runs : List (Ran ζ μ)} {resp : List Nat} {es : List (Event ζ μ)} (h : Dead s runs resp) (hr : Run cfg s es s') : Dead s' runs resp := by
  induction hr with
  | nil => exact h
  | cons hst _ ih => exact ih (h.stepped hst)

/-- The server's handler has returned. -/
structure Ended (s : State ζ μ) (runs : List (Ran ζ μ)) : Prop where
  ended : s.ended = true
  serving : s.serving = none
  runs : s.runs = runs

theorem Ended.stepped {runs : List (Ran ζ μ)} (h : Ended s runs) (hst : step cfg s e = some s') : Ended s' runs := by
  have loc : ∀ ev : DirectClient.Ev Outcome, local' cfg s ev = some s' → Ended s' runs := by
    intro ev hl
    obtain ⟨c, hc, rfl⟩ := local_eq hl
    exact ⟨h.ended, h.serving, h.runs⟩
  cases e with
  | recv =>
    simp only [step, h.ended, if_true] at hst
    split at hst <;> cases hst
  | serve hd cache =>
    simp only [step, h.serving] at hst
    cases hst
  | send =>
    simp only [step, h.ended, if_true] at hst
    repeat' split at hst
    all_goals first | cases hst; done | exact loc _ hst
  | _ =>
    first
    | exact loc _ hst
    | (simp only [step] at hst
       repeat' split at hst
       all_goals first
         | cases hst; done
         | exact loc _ hst
         | (injection hst with hst; subst hst; exact ⟨h.ended, h.serving, h.runs⟩))

theorem Ended.run {runs : List (Ran ζ μ)} {es : List (Event ζ μ)} (h : Ended s runs) (hr : Run cfg s es s') : Ended s' runs := by
  induction hr with
  | nil => exact h
  | cons hst _ ih => exact ih (h.stepped hst)

theorem awaiting_client {c c' : DirectClient.State Outcome} {ttl i : Nat} {ev : DirectClient.Ev Outcome} (hst : DirectClient.step ttl c ev = some c')
    (h : ∃ x, c.calls[i]? = some x ∧ x.awaiting = true) : ∃ x, c'.calls[i]? = some x ∧ x.awaiting = true := by
  obtain ⟨x, hx, hx2⟩ := h
  have hlt := (List.getElem?_eq_some_iff.1 hx).1
  have hset : ∀ (j : Nat) (d d' : DirectClient.Call Outcome), c.calls[j]? = some d → (d'.awaiting = true ∨ d'.awaiting = d.awaiting) →
      ∃ x, (c.calls.set j d')[i]? = some x ∧ x.awaiting = true := by
    intro j d d' hd hd'
    by_cases hj : j = i
    · subst hj
      rw [hx] at hd; injection hd with hd; subst hd
      exact ⟨d', List.getElem?_set_self hlt, by rcases hd' with h | h <;> simp [h, hx2]⟩
    · exact ⟨x, by rw [List.getElem?_set_ne hj]; exact hx, hx2⟩
  unfold DirectClient.step DirectClient.deliver at hst
  split at hst
  · cases hst
  cases ev with
  | call u n =>
    injection hst with hst; subst hst
    exact ⟨x, by dsimp only; rw [List.getElem?_append_left hlt]; exact hx, hx2⟩
  | _ =>
    dsimp only at hst
    repeat' split at hst
    all_goals first
      | cases hst; done
      | (injection hst with hst; subst hst; exact ⟨x, hx, hx2⟩)
      | (injection hst with hst; subst hst; exact hset _ _ _ (by assumption) (by first | exact .inl rfl | exact .inr rfl))

/-- A caller that waits goes on waiting. -/
theorem awaiting_kept {i : Nat} (hst : step cfg s e = some s') (h : ∃ x, s.client.calls[i]? = some x ∧ x.awaiting = true) :
    ∃ x, s'.client.calls[i]? = some x ∧ x.awaiting = true := by
  have loc : ∀ ev : DirectClient.Ev Outcome, local' cfg s ev = some s' → ∃ x, s'.client.calls[i]? = some x ∧ x.awaiting = true := by
    intro ev hl
    obtain ⟨c, hc, rfl⟩ := local_eq hl
    exact awaiting_client hc h
  cases e with
  | _ =>
    first
    | exact loc _ hst
    | (simp only [step] at hst
       repeat' split at hst
       all_goals first
         | cases hst; done
         | exact loc _ hst
         | (injection hst with hst; subst hst; exact h)
         | (injection hst with hst; subst hst; exact awaiting_client (by assumption) h))

end Resmix.Rrpc.DirectSystem
