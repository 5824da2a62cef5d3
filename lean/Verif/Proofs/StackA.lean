import Verif.Spec.Stack
import Verif.Proofs.DirectSystemC
set_option autoImplicit false
/-
What the steps of a connection leave alone.
-/
namespace Resmix.Rrpc.DirectSystem
open Resmix.Merkle
variable {ζ μ : Type} {cfg : Config ζ μ} {s s' : State ζ μ} {e : Event ζ μ} {A : List Nat}

/-- The calls of a connection, up to what was received. -/
def Kept (l l' : List (DirectClient.Call Outcome)) : Prop := l'.length = l.length ∧ ∀ (i : Nat) (c' : DirectClient.Call Outcome), l'[i]? = some c' →
  ∃ c : DirectClient.Call Outcome, l[i]? = some c ∧ c'.uuid = c.uuid ∧ c'.awaiting = c.awaiting

theorem Kept.refl (l : List (DirectClient.Call Outcome)) : Kept l l := ⟨rfl, fun _ c h => ⟨c, h, rfl, rfl⟩⟩

theorem Kept.back {l l' : List (DirectClient.Call Outcome)} (h : Kept l l') {i : Nat} {c : DirectClient.Call Outcome} (hc : l[i]? = some c) :
    ∃ c', l'[i]? = some c' ∧ c'.uuid = c.uuid ∧ c'.awaiting = c.awaiting := by
  have hi := (List.getElem?_eq_some_iff.1 hc).1
  have hi' : i < l'.length := by rw [h.1]; exact hi
  obtain ⟨c0, h1, h2, h3⟩ := h.2 i _ (List.getElem?_eq_getElem hi')
  rw [hc] at h1; cases h1
  exact ⟨_, List.getElem?_eq_getElem hi', h2, h3⟩

theorem kept_set (l : List (DirectClient.Call Outcome)) {i : Nat} {c c' : DirectClient.Call Outcome} (hc : l[i]? = some c) (h1 : c'.uuid = c.uuid)
    (h2 : c'.awaiting = c.awaiting) : Kept l (l.set i c') := by
  refine ⟨by simp, fun j x hx => ?_⟩
  by_cases hj : j = i
  · subst hj
    have hi := (List.getElem?_eq_some_iff.1 hc).1
    simp [hi] at hx
    subst hx
    exact ⟨c, hc, h1, h2⟩
  · rw [List.getElem?_set_ne (Ne.symm hj)] at hx
    exact ⟨x, hx, rfl, rfl⟩

/-- What a goroutine of the connection changes. -/
structure Frame (s s' : State ζ μ) : Prop where
  data : s'.data = s.data
  calls : Kept s.client.calls s'.client.calls
  runs : s'.runs = s.runs
  entered : s'.entered = s.entered
  serving : s'.serving = s.serving ∨ s.serving = none

theorem frame_inner (h : Inv cfg s A) (he : Stack.Inner e = true) (hg : Good cfg s e) (hst : step cfg s e = some s') : Frame s s' := by
  have hal := h.alive
  cases e with
  | call => cases he
  | enqueue => cases he
  | await => cases he
  | serve => cases he
  | readClosed i => rw [h.no_readClosed] at hst; cases hst
  | send =>
    have h0 := hst
    simp only [step] at h0
    split at h0
    · cases h0
    split at h0
    on_goal 2 => cases h0
    split at h0
    · cases h0
    rw [h.ended] at h0
    simp only [Bool.false_eq_true, if_false] at h0
    split at h0
    on_goal 2 => cases h0
    split at h0
    · cases h0
    rename_i c' hc'
    injection h0 with h0
    subst h0
    simp only [DirectClient.step, hal, Bool.false_eq_true, if_false] at hc'
    split at hc'
    on_goal 2 => cases hc'
    injection hc' with hc'
    subst hc'
    exact ⟨rfl, Kept.refl _, rfl, rfl, .inl rfl⟩
  | sendFails => rw [h.no_sendFails] at hst; cases hst
  | reportFail => rw [h.no_reportFail] at hst; cases hst
  | recv =>
    simp only [step] at hst
    split at hst
    on_goal 2 => cases hst
    rename_i hs hu
    split at hst
    · cases hst
    injection hst with hst
    subst hst
    exact ⟨rfl, Kept.refl _, rfl, rfl, .inr hs⟩
  | receive cache =>
    simp only [step, h.lost, Bool.false_eq_true, if_false] at hst
    split at hst
    · cases hst
    rename_i i msg rest hd
    obtain ⟨c, n, y, f1, f2, f3, f4, f5, f6⟩ := h.downOk (i, msg) (by rw [hd]; exact List.mem_cons_self)
    dsimp only at f2
    rw [f2] at hst
    cases hdp : s.client.disp with
    | sending => rw [hdp] at hst; cases hst
    | closing => rw [hdp] at hst; cases hst
    | idle =>
      rw [hdp] at hst
      dsimp only at hst
      split at hst
      · cases hst
      rename_i c' hc'
      injection hst with hst
      subst hst
      simp only [DirectClient.step, hal, hdp, Bool.false_eq_true, if_false] at hc'
      split at hc' <;> (injection hc' with hc'; subst hc'; exact ⟨rfl, Kept.refl _, rfl, rfl, .inl rfl⟩)
  | recvFails => rw [h.no_recvFails] at hst; cases hst
  | dispatch =>
    obtain ⟨c', hc', rfl⟩ := local_eq hst
    simp only [DirectClient.step, hal, Bool.false_eq_true, if_false] at hc'
    split at hc'
    on_goal 2 => cases hc'
    simp only [DirectClient.deliver] at hc'
    split at hc'
    · cases hc'
    rename_i i x hd c hc
    split at hc'
    · injection hc' with hc'; subst hc'; exact ⟨rfl, Kept.refl _, rfl, rfl, .inl rfl⟩
    split at hc'
    on_goal 2 => cases hc'
    injection hc' with hc'; subst hc'
    exact ⟨rfl, kept_set _ hc rfl rfl, rfl, rfl, .inl rfl⟩
  | close =>
    obtain ⟨c', hc', rfl⟩ := local_eq hst
    simp only [DirectClient.step, hal, Bool.false_eq_true, if_false] at hc'
    split at hc'
    on_goal 2 => cases hc'
    split at hc'
    · cases hc'
    rename_i i hd c hc
    split at hc'
    · injection hc' with hc'; subst hc'; exact ⟨rfl, Kept.refl _, rfl, rfl, .inl rfl⟩
    injection hc' with hc'; subst hc'
    exact ⟨rfl, kept_set _ hc rfl rfl, rfl, rfl, .inl rfl⟩
  | visit u now => rw [h.visit hg hst]; exact ⟨rfl, Kept.refl _, rfl, rfl, .inl rfl⟩
  | notify => rw [h.no_notify] at hst; cases hst
  | delete => rw [h.no_delete] at hst; cases hst

theorem frame_call (h : Inv cfg s A) {u : Str} {now : Nat} {m : Str} {a : Bytes} (hst : step cfg s (.call u now m a) = some s') :
    s'.data = s.data ++ [⟨m, a⟩] ∧ s'.client.calls = s.client.calls ++ [{ uuid := u, start := now, closed := false, awaiting := false, got := none }] ∧
    s'.runs = s.runs ∧ s'.entered = s.entered ∧ s'.serving = s.serving := by
  simp only [step, DirectClient.step, h.alive, Bool.false_eq_true, if_false, Option.some.injEq] at hst
  subst hst
  exact ⟨rfl, rfl, rfl, rfl, rfl⟩

theorem frame_enqueue (h : Inv cfg s A) {j : Nat} (hst : step cfg s (.enqueue j) = some s') :
    s'.data = s.data ∧ s'.client.calls = s.client.calls ∧ s'.runs = s.runs ∧ s'.entered = s.entered ++ [j] ∧ s'.serving = s.serving := by
  simp only [step, DirectClient.step, h.alive, Bool.false_eq_true, if_false] at hst
  split at hst
  · cases hst
  split at hst
  · cases hst
  rename_i c hc
  split at hc
  on_goal 2 => cases hc
  injection hc with hc; injection hst with hst
  subst hc; subst hst
  exact ⟨rfl, rfl, rfl, rfl, rfl⟩

theorem frame_await (h : Inv cfg s A) {j : Nat} (hst : step cfg s (.await j) = some s') :
    s'.data = s.data ∧ s'.runs = s.runs ∧ s'.entered = s.entered ∧ s'.serving = s.serving ∧
    ∃ c : DirectClient.Call Outcome, s.client.calls[j]? = some c ∧ s'.client.calls = s.client.calls.set j { c with awaiting := true } := by
  obtain ⟨c', hc', rfl⟩ := local_eq hst
  simp only [DirectClient.step, h.alive, Bool.false_eq_true, if_false] at hc'
  split at hc'
  · cases hc'
  rename_i c hc
  injection hc' with hc'
  subst hc'
  exact ⟨rfl, rfl, rfl, rfl, c, hc, rfl⟩

theorem frame_serve (h : Inv cfg s A) {hd : Handler ζ μ} {cache : Cache} (hg : Good cfg s (.serve hd cache)) (hst : step cfg s (.serve hd cache) = some s') :
    s'.data = s.data ∧ s'.client.calls = s.client.calls ∧ s'.entered = s.entered ∧ s'.serving = none ∧
    ∃ j q x, s.serving = some (j, q) ∧ s'.runs = s.runs ++ [x] ∧ x.call = j := by
  simp only [step] at hst
  split at hst
  · cases hst
  rename_i i q hs
  obtain ⟨c, d, h1, h2, h3⟩ := h.servOk _ hs
  dsimp only at h1 h2 h3
  obtain ⟨q', e1, e2⟩ := exchange cfg c.uuid d
  rw [h3] at e1; injection e1 with e1; subst e1
  obtain ⟨⟨srv, m⟩, hm⟩ := h.reg d (List.mem_of_getElem? h2)
  obtain ⟨resp, n, e3, e4, e5, e6⟩ := e2 srv m hm hd cache (fun msg => hg srv m c.uuid d.args msg)
  rw [e3] at hst
  split at hst
  on_goal 2 => cases hst
  injection hst with hst
  subst hst
  exact ⟨rfl, rfl, rfl, rfl, i, q, _, hs, rfl, rfl⟩

/-- A request of the connection's own is accepted, with its arguments. -/
theorem accepted (h : Inv cfg s A) {j : Nat} {q : DirectCallRequest} (hs : s.serving = some (j, q)) (b : Bytes) (cache : Cache) :
    ∃ c d o f, s.client.calls[j]? = some c ∧ s.data[j]? = some d ∧ q.payload = d.args ∧ q.method = d.method ∧
      (serveOne cfg (fun _ _ _ _ => .ok (.ok b)) cache q).1 = [(o, f, c.uuid, d.args)] := by
  obtain ⟨c, d, h1, h2, h3⟩ := h.servOk _ hs
  dsimp only at h1 h2 h3
  obtain ⟨q', e1, e2⟩ := exchange cfg c.uuid d
  rw [h3] at e1; injection e1 with e1; subst e1
  obtain ⟨⟨srv, m⟩, hm⟩ := h.reg d (List.mem_of_getElem? h2)
  obtain ⟨resp, n, e3, e4, e5, e6⟩ := e2 srv m hm (fun _ _ _ _ => .ok (.ok b)) cache (fun msg => by simp)
  refine ⟨c, d, srv, m, h1, h2, ?_, ?_, by rw [e3]⟩
  · simp only [requestOf, directRequest] at h3
    split at h3
    · cases h3
    · injection h3 with h3; rw [← h3]; rfl
  · simp only [requestOf, directRequest] at h3
    split at h3
    · cases h3
    · injection h3 with h3; rw [← h3]; rfl

/-- What is being served was not run before, and was made. -/
theorem Inv.serving_new (h : Inv cfg s A) {j : Nat} {q : DirectCallRequest} (hs : s.serving = some (j, q)) : j ∉ s.runs.map Ran.call ∧ j ∈ s.entered := by
  have hn := h.nodup
  have ho := h.order
  rw [hs] at ho
  refine ⟨?_, by rw [ho]; simp⟩
  rw [h.ran]
  intro hj
  rw [ho] at hn
  simp only [List.append_assoc, List.nodup_append, Option.toList_some, List.map_cons, List.map_nil] at hn
  rcases List.mem_append.1 hj with hj | hj
  · exact hn.2.2 j hj j (by simp) rfl
  · exact hn.2.1.2.2 j hj j (by simp) rfl

theorem Inv.run_made (h : Inv cfg s A) {j : Nat} (hj : j ∈ s.runs.map Ran.call) : j < s.client.calls.length := by
  refine h.bound j ?_
  rw [h.ran] at hj
  rw [h.order]
  rcases List.mem_append.1 hj with hj | hj <;> simp [hj]

end Resmix.Rrpc.DirectSystem
