import Verif.Proofs.FineD
import Verif.Proofs.Shuffle
import Verif.Spec.Mixer
set_option autoImplicit false
/- The fine-grained mixer refines Model/Mixer (C123). -/
namespace Resmix.MixerFine
open Resmix.Mixer (Messages Task Env MixState AddOp Shuf MixOutput Action mkTasks)
open Resmix.Race

/-- How many tasks the goroutine in AddMessages has made of a batch for `n` that Model/Mixer has not handled yet. -/
def pendN (h : Option (Nat × HPc × List Messages)) (n : Str) : Nat :=
  match h with
  | some (_, .idx m _ acc, _) => if m.logicalReceiver = n then acc.length else 0
  | some (_, .load m _ _ acc _, _) => if m.logicalReceiver = n then acc.length else 0
  | some (_, .store m _ _ acc _ _, _) => if m.logicalReceiver = n then acc.length else 0
  | some (_, .rstore m acc _, _) => if m.logicalReceiver = n then acc.length else 0
  | _ => 0

/-- Results that are written but not signalled. -/
def wrN (l : List (Nat × Task × Bool)) (n : Str) : Nat := l.countP fun e => e.2.2 && decide (e.2.1.mix = n)

def unw (e : Nat × Task × Bool) : Option Task := if e.2.2 then none else some e.2.1

structure MR (pend wr : Nat) (sh : List (Nat × Str × SPc)) (n : Str) (M : Mem) (ms : MixState) : Prop where
  pred : ms.predecessors = M.predecessors
  last : ms.isLastLayer = M.isLastLayer
  recd : ms.totalReceived = M.totalReceived
  tw : ms.totalWorkload = M.totalWorkload + pend
  wg : ms.wg = M.wg - wr
  sw : ms.shuffleWait = M.shuffleWait
  once : ms.once = decide (M.shuffleWait = 0)
  outs : (∀ g o p w i, (g, n, SPc.put o p w i) ∉ sh) → ms.outputs = M.outputs
  outsPut : ∀ g o p w i, (g, n, SPc.put o p w i) ∈ sh → ms.outputs = o

def holdC (pc : HPc) (rest : List Messages) : AddOp :=
  match pc with
  | .next => ⟨none, rest⟩
  | .idx m _ _ => ⟨none, m :: rest⟩
  | .load m _ _ _ _ => ⟨none, m :: rest⟩
  | .store m _ _ _ _ _ => ⟨none, m :: rest⟩
  | .rstore m _ _ => ⟨none, m :: rest⟩
  | .push n ts => ⟨some (n, ts), rest⟩
  | .check n _ => ⟨some (n, []), rest⟩

def More (f : State) (c : Mixer.State) : HPc → Prop
  | .idx m os acc => ∃ pre ms, m.messages = pre ++ os ∧ c.states m.logicalReceiver = some ms ∧ acc = mkTasks m.logicalReceiver ms.totalWorkload pre
  | .load m o os acc _ => ∃ pre ms, m.messages = pre ++ o :: os ∧ c.states m.logicalReceiver = some ms ∧ acc = mkTasks m.logicalReceiver ms.totalWorkload pre
  | .store m o os acc _ _ => ∃ pre ms, m.messages = pre ++ o :: os ∧ c.states m.logicalReceiver = some ms ∧ acc = mkTasks m.logicalReceiver ms.totalWorkload pre
  | .rstore m acc _ => ∃ ms, c.states m.logicalReceiver = some ms ∧ acc = mkTasks m.logicalReceiver ms.totalWorkload m.messages
  | .check n todo => ∃ M pre, f.mixes n = some M ∧ (pre ++ todo).Perm M.predecessors ∧ ∀ e ∈ pre, e.2 = (GoMap.lookup M.totalReceived e.1).getD 0
  | _ => True

def shufC (last : Str → Bool) (e : Nat × Str × SPc) : Option Shuf :=
  match e.2.2 with
  | .start => some ⟨e.2.1, false⟩
  | .enter => some ⟨e.2.1, false⟩
  | .copy _ => some ⟨e.2.1, false⟩
  | .put _ _ _ _ => some ⟨e.2.1, false⟩
  | .leave => if last e.2.1 then none else some ⟨e.2.1, true⟩
  | .after => if last e.2.1 then none else some ⟨e.2.1, true⟩
  | .wait => some ⟨e.2.1, true⟩
  | .send => some ⟨e.2.1, true⟩

structure R (env : Env) (last : Str → Bool) (f : State) (c : Mixer.State) : Prop where
  crashed : c.crashed = false
  closed : c.closed = f.closed
  queue : c.queue = f.queue
  busy : c.busy = f.busy.filterMap unw
  holder : c.holder = f.holder.map fun x => holdC x.2.1 x.2.2
  none : ∀ n, f.mixes n = none → c.states n = none
  mix : ∀ n M, f.mixes n = some M → ∃ ms, c.states n = some ms ∧ MR (pendN f.holder n) (wrN f.busy n) f.shufs n M ms
  more : ∀ g pc rest, f.holder = some (g, pc, rest) → More f c pc
  shufs : c.shufs = f.shufs.filterMap (shufC last)
  lastOk : ∀ n M, f.mixes n = some M → M.isLastLayer = last n
  output : c.output.map (·.logicalSender) = f.output
  sent : ∃ pre, c.sent = pre ++ c.output ∧ pre.map (·.logicalSender) = f.received
  cont : ∀ o ∈ c.sent, ∃ M, f.mixes o.logicalSender = some M ∧ M.outputs = o.onions
  cpu : ∀ e ∈ f.busy, e.1 < env.nCPU

/-- A step of the fine model is matched by at most one step of Model/Mixer. -/
def Match (env : Env) (last : Str → Bool) (f' : State) (c : Mixer.State) (calls : List (List Messages)) : Prop :=
  ∃ as c', Mixer.exec env c as = some c' ∧ c'.crashed = f'.crashed ∧ (f'.crashed = false → R env last f' c') ∧
    as.filterMap (fun a => match a with | .call ms => some ms | _ => none) = calls ∧ (Action.close ∈ as → f'.closed = true)

theorem Match.stutter {env : Env} {last : Str → Bool} {f' : State} {c : Mixer.State} (h : R env last f' c) (hc : f'.crashed = false) : Match env last f' c [] :=
  ⟨[], c, rfl, by rw [h.crashed, hc], fun _ => h, rfl, by simp⟩

theorem Match.one {env : Env} {last : Str → Bool} {f' : State} {c c' : Mixer.State} {a : Action} (hs : Mixer.step env c a = some c')
    (hc : c'.crashed = f'.crashed) (h : f'.crashed = false → R env last f' c') (ha : ∀ ms, a ≠ .call ms) (hcl : a = .close → f'.closed = true) :
    Match env last f' c [] := by
  refine ⟨[a], c', ?_, hc, h, ?_, ?_⟩
  · simp [Mixer.exec, hs]
  · cases a <;> first | rfl | exact absurd rfl (ha _)
  · intro hm; simp at hm; exact hcl hm.symm

theorem mkTasks_append (n : Str) (w : Int) (xs ys : List Bytes) : mkTasks n w (xs ++ ys) = mkTasks n w xs ++ mkTasks n (w - xs.length) ys := by
  induction xs generalizing w with
  | nil => simp [mkTasks]
  | cons x xs ih =>
    simp only [List.cons_append, mkTasks, ih, List.length_cons]
    rw [show w - 1 - (xs.length : Int) = w - ((xs.length + 1 : Nat) : Int) by push_cast; omega]

theorem mkTasks_length (n : Str) (w : Int) (xs : List Bytes) : (mkTasks n w xs).length = xs.length := by
  induction xs generalizing w with
  | nil => rfl
  | cons x xs ih => simp [mkTasks, ih]

/-- The holder moves, nothing else changes. -/
theorem R.holdMove {env : Env} {last : Str → Bool} {f : State} {c : Mixer.State} (h : R env last f c) {x : Option (Nat × HPc × List Messages)}
    (hc : c.holder = x.map fun x => holdC x.2.1 x.2.2) (hp : ∀ n, pendN x n = pendN f.holder n)
    (hm : ∀ g pc rest, x = some (g, pc, rest) → More f c pc) : R env last { f with holder := x } c :=
  { h with
    holder := hc
    mix := fun n M hM => by dsimp only; rw [hp]; exact h.mix n M hM
    more := fun g pc rest hx => by
      have := hm g pc rest hx
      revert this
      cases pc <;> exact id }

end Resmix.MixerFine
