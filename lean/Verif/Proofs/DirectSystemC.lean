import Verif.Proofs.DirectSystemB
import Mathlib.Data.List.Perm.Subperm
import Mathlib.Data.List.Nodup
set_option autoImplicit false
/-
What a properly used connection has left to do.
-/
namespace Resmix.Rrpc.DirectSystem
open Resmix.Merkle
variable {ζ μ : Type} {cfg : Config ζ μ} {s s' : State ζ μ} {e : Event ζ μ} {A : List Nat}

/-- What the receiving goroutine has left to do. -/
def dispWork : DirectClient.Disp Outcome → Nat
  | .idle => 0
  | .sending _ _ => 2
  | .closing _ => 1

/-- The steps left: seven for every call that is made. -/
def work (s : State ζ μ) : Nat :=
  7 * (s.client.calls.length - s.entered.length) + 6 * s.client.queue.length + 5 * s.up.length + 4 * s.serving.toList.length + 3 * s.down.length + dispWork s.client.disp

theorem Inv.entered_le (h : Inv cfg s A) : s.entered.length ≤ s.client.calls.length := by
  have : s.entered ⊆ List.range s.client.calls.length := fun i hi => List.mem_range.2 (h.bound i hi)
  simpa using (h.nodup.subperm this).length_le

/-- A call adds seven steps, every step of the connection's own takes one away. -/
theorem Inv.work_step (h : Inv cfg s A) (hg : Good cfg s e) (hst : step cfg s e = some s') :
    work s' + (if e.Own then 1 else 0) = work s + (if e.isCall then 7 else 0) := by
  have hal := h.alive
  have hle := h.entered_le
  cases e with
  | call u now m a =>
    simp only [step, DirectClient.step, hal, Bool.false_eq_true, if_false, Option.some.injEq] at hst
    subst hst
    simp [work, Event.Own, Event.isCall]; omega
  | enqueue i =>
    have hinv := (h.enqueue hst).entered_le
    simp only [step, DirectClient.step, hal, Bool.false_eq_true, if_false] at hst
    split at hst
    · cases hst
    split at hst
    · cases hst
    rename_i c hc
    split at hc
    on_goal 2 => cases hc
    injection hc with hc; injection hst with hst
    subst hc; subst hst
    simp only [List.length_append, List.length_cons, List.length_nil] at hinv
    simp [work, Event.Own, Event.isCall]; omega
  | await i =>
    obtain ⟨c', hc', rfl⟩ := local_eq hst
    simp only [DirectClient.step, hal, Bool.false_eq_true, if_false] at hc'
    split at hc'
    · cases hc'
    injection hc' with hc'
    subst hc'
    simp [work, Event.Own, Event.isCall]
  | readClosed i => rw [h.no_readClosed] at hst; cases hst
  | send =>
    have hsn := h.sender
    simp only [step, DirectClient.step, hal, hsn, h.ended, Bool.false_eq_true, if_false] at hst
    split at hst
    · cases hst
    rename_i i rest hq
    split at hst
    on_goal 2 => cases hst
    split at hst
    · cases hst
    rw [hq] at hst
    dsimp only at hst
    split at hst
    on_goal 2 => cases hst
    injection hst with hst
    subst hst
    simp [work, Event.Own, Event.isCall, hq]; omega
  | sendFails => rw [h.no_sendFails] at hst; cases hst
  | reportFail => rw [h.no_reportFail] at hst; cases hst
  | recv =>
    simp only [step, h.ended, Bool.false_eq_true, if_false] at hst
    split at hst
    on_goal 2 => cases hst
    rename_i x rest hs hu
    injection hst with hst
    subst hst
    simp [work, Event.Own, Event.isCall, hs, hu]; omega
  | serve hd cache =>
    simp only [step] at hst
    split at hst
    · cases hst
    rename_i i q hs
    obtain ⟨c, d, h1, h2, h3⟩ := h.servOk _ hs
    dsimp only at h1 h2 h3
    obtain ⟨q', e1, e2⟩ := exchange cfg c.uuid d
    rw [h3] at e1; injection e1 with e1; subst e1
    obtain ⟨⟨srv, m⟩, hm⟩ := h.reg d (List.mem_of_getElem? h2)
    obtain ⟨resp, n, e3, e4, e5, e6⟩ := e2 srv m hm hd cache (fun msg => hg srv m c.uuid d.args msg)
    rw [e3] at hst
    split at hst
    on_goal 2 => cases hst
    injection hst with hst
    subst hst
    simp [work, Event.Own, Event.isCall, hs]; omega
  | receive cache =>
    simp only [step, DirectClient.step, hal, h.lost, Bool.false_eq_true, if_false] at hst
    split at hst
    · cases hst
    rename_i i msg rest hd
    obtain ⟨c, n, y, f1, f2, f3, f4, f5, f6⟩ := h.downOk (i, msg) (by rw [hd]; exact List.mem_cons_self)
    dsimp only at f1 f2 f3 f5 f6
    rw [f2] at hst
    cases hdp : s.client.disp with
    | sending => rw [hdp] at hst; cases hst
    | closing => rw [hdp] at hst; cases hst
    | idle =>
      rw [hdp] at hst
      dsimp only at hst
      have hiA : i ∉ A := by
        intro hi
        have := h.nodup
        rw [h.order, hd] at this
        simp only [List.map_cons, List.append_assoc, List.nodup_append] at this
        exact this.2.2 i hi i (by simp) rfl
      obtain ⟨g1, g2, g3⟩ := h.wait i c f1 hiA
      rw [f3, g1] at hst
      dsimp only at hst
      injection hst with hst
      subst hst
      simp [work, Event.Own, Event.isCall, hd, hdp, dispWork]; omega
  | recvFails => rw [h.no_recvFails] at hst; cases hst
  | dispatch =>
    obtain ⟨c', hc', rfl⟩ := local_eq hst
    simp only [DirectClient.step, hal, Bool.false_eq_true, if_false] at hc'
    split at hc'
    on_goal 2 => cases hc'
    rename_i i x hdp
    obtain ⟨hiA, c0, hc0, hgot⟩ := h.dispS i x hdp
    unfold DirectClient.deliver at hc'
    rw [hc0] at hc'
    dsimp only at hc'
    obtain ⟨y, h1, h2, ⟨h3, h4, h5⟩ | ⟨h3, h4⟩⟩ := h.ans i c0 hc0 hiA
    · rw [h5] at hc'
      simp only [Bool.false_eq_true, if_false] at hc'
      split at hc'
      on_goal 2 => cases hc'
      injection hc' with hc'
      subst hc'
      simp [work, Event.Own, Event.isCall, hdp, dispWork]
    · rw [hgot] at h3; cases h3
  | close =>
    obtain ⟨c', hc', rfl⟩ := local_eq hst
    simp only [DirectClient.step, hal, Bool.false_eq_true, if_false] at hc'
    split at hc'
    on_goal 2 => cases hc'
    rename_i i hdp
    obtain ⟨hiA, c0, hc0, hgot, hcl⟩ := h.dispC i hdp
    rw [hc0] at hc'
    dsimp only at hc'
    rw [if_neg (by rw [hcl]; simp)] at hc'
    injection hc' with hc'
    subst hc'
    simp [work, Event.Own, Event.isCall, hdp, dispWork]
  | visit u now => rw [h.visit hg hst]; simp [Event.Own, Event.isCall]
  | notify => rw [h.no_notify] at hst; cases hst
  | delete => rw [h.no_delete] at hst; cases hst

theorem Inv.work_run {es : List (Event ζ μ)} (h : Inv cfg s A) (hr : GoodRun cfg s es s') :
    work s' + es.countP Event.Own = work s + 7 * es.countP Event.isCall := by
  induction hr generalizing A with
  | nil => simp
  | cons hst hg _ ih =>
    obtain ⟨A', h'⟩ := h.stepped hg hst
    have h1 := ih h'
    have h2 := h.work_step hg hst
    rw [List.countP_cons, List.countP_cons]
    split at h2 <;> split at h2 <;> simp_all <;> omega

theorem GoodRun.append {s'' : State ζ μ} {es es' : List (Event ζ μ)} (h : GoodRun cfg s es s') (h' : GoodRun cfg s' es' s'') : GoodRun cfg s (es ++ es') s'' := by
  induction h with
  | nil => exact h'
  | cons hst hg _ ih => exact .cons hst hg (ih h')

/-- A connection left alone comes to rest. -/
theorem Inv.rest (h : Inv cfg s A) : ∃ es s', GoodRun cfg s es s' ∧ (∀ e ∈ es, e.Own = true) ∧ AtRest cfg s' := by
  generalize hn : work s = n
  induction n generalizing s A with
  | zero =>
    refine ⟨[], s, .nil s, by simp, ?_⟩
    intro e he hg
    by_contra hne
    obtain ⟨s', hs'⟩ := Option.ne_none_iff_exists'.1 hne
    have := h.work_step hg hs'
    cases e <;> simp_all [Event.Own, Event.isCall]
  | succ n ih =>
    by_cases hr : AtRest cfg s
    · exact ⟨[], s, .nil s, by simp, hr⟩
    · simp only [AtRest] at hr
      push Not at hr
      obtain ⟨e, he, hg, hne⟩ := hr
      obtain ⟨s1, hs1⟩ := Option.ne_none_iff_exists'.1 hne
      have hw := h.work_step hg hs1
      obtain ⟨A', h'⟩ := h.stepped hg hs1
      have hcall : e.isCall = false := by cases e <;> simp_all [Event.Own, Event.isCall]
      rw [he, hcall] at hw
      simp only [if_true, Bool.false_eq_true, if_false] at hw
      obtain ⟨es, s2, h1, h2, h3⟩ := ih h' (by omega)
      refine ⟨e :: es, s2, .cons hs1 hg h1, ?_, h3⟩
      intro e' he'
      rcases List.mem_cons.1 he' with rfl | he'
      · exact he
      · exact h2 e' he'

/-- If the goroutines of a connection cannot go on, and everybody whose call was queued waits, all calls have their results. -/
theorem Inv.answered (h : Inv cfg s A) (hw : 0 < cfg.window) (hdi : step cfg s .dispatch = none) (hcl' : step cfg s .close = none) (hre : step cfg s (.receive []) = none)
    (hse : s.down = [] → s.serving = none) (hrc : step cfg s .recv = none) (hsn : step cfg s .send = none) (hen : ∀ i, step cfg s (.enqueue i) = none)
    (hall : ∀ (i : Nat) (c : DirectClient.Call Outcome), s.client.calls[i]? = some c → i ∈ s.entered → c.awaiting = true) :
    ∀ (i : Nat) (c : DirectClient.Call Outcome), s.client.calls[i]? = some c → i ∈ A ∧ c.got ≠ none := by
  have hal := h.alive
  have hdisp : s.client.disp = .idle := by
    cases hd : s.client.disp with
    | idle => rfl
    | sending i x =>
      exfalso
      obtain ⟨hiA, c, hc, hg⟩ := h.dispS i x hd
      have hcl : c.closed = false := by
        obtain ⟨y, -, -, ⟨-, -, h3⟩ | ⟨h3, -⟩⟩ := h.ans i c hc hiA
        · exact h3
        · rw [hg] at h3; cases h3
      have := hdi
      simp [step, local', DirectClient.step, hal, hd, DirectClient.deliver, hc, hcl, hall i c hc (h.sub hiA), hg] at this
    | closing i =>
      exfalso
      obtain ⟨hiA, c, hc, hg, hcl⟩ := h.dispC i hd
      have := hcl'
      simp [step, local', DirectClient.step, hal, hd, hc, hcl] at this
  have hdown : s.down = [] := by
    cases hd : s.down with
    | nil => rfl
    | cons x rest =>
      exfalso
      obtain ⟨i, msg⟩ := x
      obtain ⟨c, n, y, f1, f2, f3, f4, f5, f6⟩ := h.downOk (i, msg) (by rw [hd]; exact List.mem_cons_self)
      have := hre
      dsimp only at f2
      simp only [step, DirectClient.step, hal, h.lost, Bool.false_eq_true, if_false, hd, hdisp, f2] at this
      split at this
      · rename_i hh; split at hh <;> cases hh
      · cases this
  have hserv : s.serving = none := hse hdown
  have hup : s.up = [] := by
    cases hu : s.up with
    | nil => rfl
    | cons x rest =>
      exfalso
      have := hrc
      simp [step, hserv, hu, h.ended] at this
  have hq : s.client.queue = [] := by
    cases hq : s.client.queue with
    | nil => rfl
    | cons i rest =>
      exfalso
      have hi : i ∈ s.entered := by rw [h.order, hq]; simp
      have hlt := h.bound i hi
      have hlt' : i < s.data.length := by rw [h.len]; exact hlt
      have := hsn
      obtain ⟨q, hq', -⟩ := exchange cfg (s.client.calls[i]).uuid s.data[i]
      simp only [step, hq, List.getElem?_eq_getElem hlt, List.getElem?_eq_getElem hlt', hq', h.ended, Bool.false_eq_true, if_false, hup, List.length_nil, if_pos hw,
        DirectClient.step, hal, h.sender] at this
      cases this
  intro i c hc
  have hlt := (List.getElem?_eq_some_iff.1 hc).1
  have hent : i ∈ s.entered := by
    by_contra hne
    have := hen i
    simp [step, hne, DirectClient.step, hal, hlt, hq] at this
  have hiA : i ∈ A := by
    rw [h.order, hdown, hserv, hup, hq] at hent
    simpa using hent
  refine ⟨hiA, ?_⟩
  obtain ⟨y, -, -, ⟨h3, -⟩ | ⟨h3, -⟩⟩ := h.ans i c hc hiA
  · rw [hdisp] at h3; cases h3
  · rw [h3]; simp

/-- At rest, if every caller waits for his result, every call has been answered. -/
theorem Inv.all_answered (h : Inv cfg s A) (hw : 0 < cfg.window) (hr : AtRest cfg s) (hall : ∀ c ∈ s.client.calls, c.awaiting = true) :
    ∀ (i : Nat) (c : DirectClient.Call Outcome), s.client.calls[i]? = some c → i ∈ A ∧ c.got ≠ none := by
  refine h.answered hw (hr .dispatch rfl trivial) (hr .close rfl trivial) (hr (.receive []) rfl trivial) ?_ (hr .recv rfl trivial) (hr .send rfl trivial)
    (fun i => hr (.enqueue i) rfl trivial) (fun i c hc _ => hall c (List.mem_of_getElem? hc))
  intro hdown
  cases hs : s.serving with
  | none => rfl
  | some x =>
    exfalso
    have := hr (.serve (fun _ _ _ _ => .ok (.ok [])) []) rfl (by intro srv m u a msg; simp)
    simp only [step, hs, hdown, List.length_nil, if_pos hw] at this
    cases this

end Resmix.Rrpc.DirectSystem
