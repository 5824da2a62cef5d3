import Verif.Proofs.FineI
set_option autoImplicit false
/- The fine-grained mixer comes to rest (C123). -/
namespace Resmix.MixerFine
open Resmix.Mixer (Messages Task Env MixState AddOp Shuf MixOutput Action mkTasks newMixers)
open Resmix.Race

abbrev Shape := Str → Option (Nat × Nat)
def shapeOf (f : State) : Shape := fun n => (f.mixes n).map fun M => (M.outputs.length, M.predecessors.length)
def lenOf (sh : Shape) (n : Str) : Nat := ((sh n).map (·.1)).getD 0
def prdOf (sh : Shape) (n : Str) : Nat := ((sh n).map (·.2)).getD 0

theorem lenOf_eq {f : State} {n : Str} {M : Mem} (h : f.mixes n = some M) : lenOf (shapeOf f) n = M.outputs.length := by simp [lenOf, shapeOf, h]
theorem prdOf_eq {f : State} {n : Str} {M : Mem} (h : f.mixes n = some M) : prdOf (shapeOf f) n = M.predecessors.length := by simp [prdOf, shapeOf, h]

theorem shape_set {f : State} {n : Str} {M M' : Mem} (h : f.mixes n = some M) (h1 : M'.outputs.length = M.outputs.length) (h2 : M'.predecessors.length = M.predecessors.length) :
    shapeOf (f.set n M') = shapeOf f := by
  funext n'
  simp only [shapeOf, set_mixes]
  by_cases e : n' = n
  · subst e; simp [h, h1, h2]
  · simp [e]

def sW (sh : Shape) (e : Nat × Str × SPc) : Nat :=
  let L := lenOf sh e.2.1
  match e.2.2 with
  | .start => 2 * L + 9
  | .enter => 2 * L + 8
  | .copy o => (L - o.length) + L + 7
  | .put _ _ _ i => (L - i) + 6
  | .leave => 5
  | .after => 4
  | .wait => 3
  | .send => 2

def kW (sh : Shape) (n : Str) : Nat := prdOf sh n + 4 + (2 * lenOf sh n + 9)
def bW (sh : Shape) (m : Messages) : Nat := 1 + 7 * m.messages.length + kW sh m.logicalReceiver
def rW (sh : Shape) (ms : List Messages) : Nat := (ms.map (bW sh)).sum

def pcW (sh : Shape) : HPc → Nat
  | .next => 0
  | .idx m os acc => 7 * os.length + 4 * acc.length + kW sh m.logicalReceiver
  | .load m _ os acc _ => 7 * os.length + 6 + 4 * acc.length + kW sh m.logicalReceiver
  | .store m _ os acc _ _ => 7 * os.length + 5 + 4 * acc.length + kW sh m.logicalReceiver
  | .rstore m acc _ => 4 * acc.length + kW sh m.logicalReceiver - 1
  | .push n ts => 4 * ts.length + kW sh n - 2
  | .check n todo => todo.length + 1 + (2 * lenOf sh n + 9)

def hW (sh : Shape) : Option (Nat × HPc × List Messages) → Nat
  | none => 0
  | some (_, pc, rest) => 1 + pcW sh pc + rW sh rest

def wW (e : Nat × Task × Bool) : Nat := if e.2.2 then 1 else 2
def gW (e : Str × GPc) : Nat := match e.2 with | .start => 2 | .wait => 1 | .reading => 0

/-- How many steps the process can still take on its own. -/
def mu (sh : Shape) (f : State) : Nat :=
  (if f.crashed then 0 else 1) + hW sh f.holder + 3 * f.queue.length + (f.busy.map wW).sum + (f.shufs.map (sW sh)).sum + f.output.length + (f.getters.map gW).sum

theorem sum_set {α : Type} {w : α → Nat} {l : List α} {j : Nat} {x : α} (h : l[j]? = some x) (y : α) : ((l.set j y).map w).sum + w x = (l.map w).sum + w y := by
  induction l generalizing j with
  | nil => simp at h
  | cons a l ih =>
    cases j with
    | zero => simp at h; subst h; simp; omega
    | succ j => simp at h; have := ih h; simp [-List.map_set]; omega

theorem sum_erase {α : Type} {w : α → Nat} {l : List α} {j : Nat} {x : α} (h : l[j]? = some x) : ((l.eraseIdx j).map w).sum + w x = (l.map w).sum := by
  induction l generalizing j with
  | nil => simp at h
  | cons a l ih =>
    cases j with
    | zero => simp at h; subst h; simp; omega
    | succ j => simp at h; have := ih h; simp; omega

theorem mu_add {env : Env} {f f' : State} {evs : List Ev} (hc : f.crashed = false) (h : AddStep env f evs f') (hh : f.holder ≠ none) :
    shapeOf f' = shapeOf f ∧ mu (shapeOf f) f' < mu (shapeOf f) f := by
  cases h with
  | lock ms h => exact absurd h hh
  | unlock h => exact ⟨rfl, by simp [-List.map_set, mu, hc, h, hW, pcW, rW]⟩
  | unknown h hn => exact ⟨rfl, by simp [-List.map_set, mu, hc, State.crash]⟩
  | batch h hn => exact ⟨rfl, by simp [-List.map_set, mu, hc, h, hW, pcW, rW, bW]; omega⟩
  | index h hM => exact ⟨rfl, by simp [-List.map_set, mu, hc, h, hW, pcW, rW, bW]; omega⟩
  | load h hM => exact ⟨rfl, by simp [-List.map_set, mu, hc, h, hW, pcW, rW, bW]⟩
  | store h hM => exact ⟨shape_set (f := f) hM rfl rfl, by simp [-List.map_set, mu, hc, h, hW, pcW, rW, bW]; omega⟩
  | count h hM => exact ⟨rfl, by simp [-List.map_set, mu, hc, h, hW, pcW, rW, kW]; omega⟩
  | counted h hM => exact ⟨shape_set (f := f) hM rfl rfl, by simp [-List.map_set, mu, hc, h, hW, pcW, rW, kW]; omega⟩
  | pushClosed h hcl => exact ⟨rfl, by simp [-List.map_set, mu, hc, State.crash]⟩
  | push h hcl hcap => exact ⟨rfl, by simp [-List.map_set, mu, hc, h, hW, pcW, rW, kW]; omega⟩
  | check order h hM ho => exact ⟨rfl, by simp [-List.map_set, mu, hc, h, hW, pcW, rW, kW, prdOf_eq hM, ho.length_eq]; omega⟩
  | same h hM hv => exact ⟨rfl, by simp [-List.map_set, mu, hc, h, hW, pcW, rW, kW]⟩
  | differs h hM hv => exact ⟨rfl, by simp [-List.map_set, mu, hc, h, hW, pcW, rW, kW]; omega⟩
  | spawn h => exact ⟨rfl, by simp [-List.map_set, mu, hc, h, hW, pcW, rW, sW]; omega⟩

theorem mu_work {env : Env} {f f' : State} {evs : List Ev} (hc : f.crashed = false) (h : WorkStep env f evs f') :
    shapeOf f' = shapeOf f ∧ mu (shapeOf f) f' < mu (shapeOf f) f := by
  cases h with
  | take w h hw hi => exact ⟨rfl, by simp [-List.map_set, mu, hc, h, wW]; omega⟩
  | panic h hp => exact ⟨rfl, by simp [-List.map_set, mu, hc, State.crash]⟩
  | range h hM hi => exact ⟨rfl, by simp [-List.map_set, mu, hc, State.crash]⟩
  | @write j w t M h hp hM hi =>
    refine ⟨shape_set (f := f) hM (by simp) rfl, ?_⟩
    have := sum_set (w := wW) h (w, t, true)
    have e1 : wW (w, t, true) = 1 := rfl
    have e2 : wW (w, t, false) = 2 := rfl
    simp [-List.map_set, mu, hc]
    omega
  | negative h hM hg => exact ⟨rfl, by simp [-List.map_set, mu, hc, State.crash]⟩
  | done h hM hg =>
    refine ⟨shape_set (f := f) hM rfl rfl, ?_⟩
    have := sum_erase (w := wW) h
    simp only [wW] at this
    simp [-List.map_set, mu, hc]
    simp at this
    omega

theorem mu_shuf {env : Env} {f f' : State} {evs : List Ev} (hc : f.crashed = false) (h : ShufStep env f evs f') :
    shapeOf f' = shapeOf f ∧ mu (shapeOf f) f' < mu (shapeOf f) f := by
  cases h with
  | @start j g n M h hM hw =>
    refine ⟨rfl, ?_⟩
    have := sum_set (w := sW (shapeOf f)) h (g, n, .enter)
    simp [-List.map_set, sW] at this
    simp [-List.map_set, mu, hc]; omega
  | @first j g n M h hM ho =>
    refine ⟨shape_set (f := f) hM rfl rfl, ?_⟩
    have := sum_set (w := sW (shapeOf f)) h (g, n, .copy [])
    simp [-List.map_set, sW] at this
    simp [-List.map_set, mu, hc]; omega
  | @later j g n M h hM ho =>
    refine ⟨rfl, ?_⟩
    have := sum_set (w := sW (shapeOf f)) h (g, n, .after)
    simp [-List.map_set, sW] at this
    simp [-List.map_set, mu, hc]; omega
  | @copy j g n orig x M h hM hx =>
    refine ⟨rfl, ?_⟩
    have := sum_set (w := sW (shapeOf f)) h (g, n, .copy (orig ++ [x]))
    have hl := (List.getElem?_eq_some_iff.1 hx).1
    simp [-List.map_set, sW, lenOf_eq hM] at this
    simp [-List.map_set, mu, hc]; omega
  | @draw j g n orig M p words rest h hM hl hp =>
    refine ⟨rfl, ?_⟩
    have := sum_set (w := sW (shapeOf f)) h (g, n, .put orig p words 0)
    simp [-List.map_set, sW, lenOf_eq hM] at this
    simp [-List.map_set, mu, hc]; omega
  | @put j g n orig p words i k x M h hM hi hk hx =>
    refine ⟨shape_set (f := f) hM (by simp) rfl, ?_⟩
    have := sum_set (w := sW (shapeOf f)) h (g, n, .put orig p words (i + 1))
    simp [-List.map_set, sW, lenOf_eq hM] at this
    simp [-List.map_set, mu, hc]; omega
  | badIndex h hM hi hk => exact ⟨rfl, by simp [-List.map_set, mu, hc, State.crash]⟩
  | @signal j g n orig p words i M h hM hi =>
    refine ⟨shape_set (f := f) hM rfl rfl, ?_⟩
    have := sum_set (w := sW (shapeOf f)) h (g, n, .leave)
    simp [-List.map_set, sW, lenOf_eq hM] at this
    simp [-List.map_set, mu, hc]; omega
  | @leave j g n M h hM =>
    refine ⟨shape_set (f := f) hM rfl rfl, ?_⟩
    have := sum_set (w := sW (shapeOf f)) h (g, n, .after)
    simp [-List.map_set, sW] at this
    simp [-List.map_set, mu, hc]; omega
  | @last j g n M h hM hl =>
    refine ⟨rfl, ?_⟩
    have := sum_erase (w := sW (shapeOf f)) h
    simp [-List.map_set, sW] at this
    simp [-List.map_set, mu, hc]; omega
  | @waited j g n M h hM hl hw =>
    refine ⟨rfl, ?_⟩
    have := sum_set (w := sW (shapeOf f)) h (g, n, .wait)
    simp [-List.map_set, sW] at this
    simp [-List.map_set, mu, hc]; omega
  | @outputs j g n M h hM hw =>
    refine ⟨rfl, ?_⟩
    have := sum_set (w := sW (shapeOf f)) h (g, n, .send)
    simp [-List.map_set, sW] at this
    simp [-List.map_set, mu, hc]; omega
  | @send j g n h hcap =>
    refine ⟨rfl, ?_⟩
    have := sum_erase (w := sW (shapeOf f)) h
    simp [-List.map_set, sW] at this
    simp [-List.map_set, mu, hc]; omega

theorem mu_read {f f' : State} {evs : List Ev} (hc : f.crashed = false) (h : ReadStep f evs f') (ha : ∃ e ∈ evs, ∃ y, e.op = .acquire y) :
    shapeOf f' = shapeOf f ∧ mu (shapeOf f) f' < mu (shapeOf f) f := by
  cases h with
  | recv h => exact ⟨rfl, by simp [-List.map_set, mu, hc, h]⟩
  | @getWg k n M h hM hw =>
    refine ⟨rfl, ?_⟩
    have := sum_set (w := gW) h (n, .wait)
    simp [-List.map_set, gW] at this
    simp [-List.map_set, mu, hc]; omega
  | @getShuffled k n M h hM hw =>
    refine ⟨rfl, ?_⟩
    have := sum_set (w := gW) h (n, .reading)
    simp [-List.map_set, gW] at this
    simp [-List.map_set, mu, hc]; omega
  | _ => simp at ha

theorem mu_own {env : Env} {f f' : State} {evs : List Ev} (hc : f.crashed = false) (h : Own env f evs f') :
    shapeOf f' = shapeOf f ∧ mu (shapeOf f) f' < mu (shapeOf f) f := by
  cases h with
  | add h hh => exact mu_add hc h hh
  | work h => exact mu_work hc h
  | shuf h => exact mu_shuf hc h
  | read h ha => exact mu_read hc h ha

theorem ownRun_le {env : Env} {f f' : State} {k : Nat} (h : OwnRun env f k f') : shapeOf f' = shapeOf f ∧ k + mu (shapeOf f) f' ≤ mu (shapeOf f) f := by
  induction h with
  | nil => exact ⟨rfl, by omega⟩
  | @snoc k s1 s2 evs hr hc ho ih =>
    obtain ⟨h1, h2⟩ := mu_own hc ho
    rw [ih.1] at h2
    exact ⟨h1.trans ih.1, by omega⟩

/-- Own steps are steps; they make no new calls and do not close. -/
theorem own_step {env : Env} {f f' : State} {evs : List Ev} (h : Own env f evs f') : Step env f evs f' ∧ f'.calls = f.calls ∧ f'.closed = f.closed := by
  cases h with
  | add h hh =>
    refine ⟨.add h, ?_⟩
    cases h <;> first | exact ⟨rfl, rfl⟩ | exact absurd ‹_› hh
  | work h => exact ⟨.work h, by cases h <;> exact ⟨rfl, rfl⟩⟩
  | shuf h => exact ⟨.shuf h, by cases h <;> exact ⟨rfl, rfl⟩⟩
  | read h ha => exact ⟨.read h, by cases h <;> first | exact ⟨rfl, rfl⟩ | simp at ha⟩

theorem ownRun_exec {env : Env} {f0 f f' : State} {tr : List Ev} {k : Nat} (hx : Exec env f0 tr f) (h : OwnRun env f k f') :
    (∃ tr', Exec env f0 tr' f') ∧ f'.calls = f.calls ∧ f'.closed = f.closed := by
  induction h with
  | nil => exact ⟨⟨tr, hx⟩, rfl, rfl⟩
  | snoc hr hc ho ih =>
    obtain ⟨⟨tr', hx'⟩, h1, h2⟩ := ih
    obtain ⟨hst, h3, h4⟩ := own_step ho
    exact ⟨⟨_, .snoc hx' hc hst⟩, h3.trans h1, h4.trans h2⟩

end Resmix.MixerFine
