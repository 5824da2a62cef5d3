import Verif.Proofs.RobustRace
set_option autoImplicit false
/-
C130: robust calls of any number of goroutines through one coordinator have no data races, if each uses Requests of its own; and when a call has returned, its Request is the
caller's again, although its parcels may still be on their way.
-/
namespace Resmix.Rrpc.RobustRace
open Resmix.Race

/-- C130: in every execution of the client side in which no Request is used by two goroutines there is no data race: neither on the Requests, nor on the parcels, the
responses and the proofs that pass between the callers and the goroutines of the connections. -/
theorem C130_race_free {n : Nat} {s : State} (h : Reach n s) (hsep : Separate s) : RaceFree s.trace := by
  obtain ⟨γ, -, -, h2⟩ := h.own hsep
  exact h2.free

def run1 : List Entry := [⟨.user 5, .write (.req 0)⟩, ⟨.user 5, .write (.parts 0)⟩]
def run2 : List Entry := run1 ++ [⟨.user 5, .read (.parts 0)⟩, ⟨.user 5, .release (.live 0 0)⟩, ⟨.user 5, .release (.sent 0 0)⟩]
def run3 : List Entry := run2 ++ [⟨.user 5, .read (.parts 0)⟩, ⟨.user 5, .release (.live 0 1)⟩, ⟨.user 5, .release (.sent 0 1)⟩]
def run4 : List Entry := run3 ++ [⟨.sender 0, .acquire (.sent 0 0)⟩, ⟨.sender 0, .read (.parts 0)⟩]
def run5 : List Entry := run4 ++ [⟨.receiver 0, .write (.resp 0)⟩, ⟨.receiver 0, .acquire (.live 0 0)⟩, ⟨.receiver 0, .release (.answer 0)⟩]
def run6 : List Entry := run5 ++ [⟨.user 5, .acquire (.answer 0)⟩, ⟨.user 5, .write (.resp 0)⟩]
def run7 : List Entry := run6 ++ [⟨.user 5, .read (.resp 0)⟩, ⟨.user 5, .write (.req 0)⟩]
def run8 : List Entry := run7 ++ [⟨.user 5, .write (.req 0)⟩]
def run9 : List Entry := run8 ++ [⟨.sender 1, .acquire (.sent 0 1)⟩, ⟨.sender 1, .read (.parts 0)⟩]
def run10 : List Entry := run9 ++ [⟨.cleanup 1, .acquire (.live 0 1)⟩, ⟨.cleanup 1, .read (.parts 0)⟩, ⟨.cleanup 1, .write (.resp 1)⟩, ⟨.cleanup 1, .release (.answer 1)⟩]
def run11 : List Entry := run10 ++ [⟨.direct 3, .write (.proof 0)⟩, ⟨.direct 3, .release (.pub 0 0)⟩, ⟨.direct 3, .release (.pub 0 1)⟩]
def run12 : List Entry := run11 ++ [⟨.prover 1, .acquire (.pub 0 1)⟩, ⟨.prover 1, .read (.proof 0)⟩]

/-- A run with two relays: a call returns after one answer and its Request is used again, while the second parcel has not been sent yet; later it is sent, and expires. A proof
is published. -/
theorem reach12 : ∃ s, Reach 2 s ∧ Separate s ∧ s.trace = run12 := by
  have r1 : Reach 2 ⟨[(5, 0)], [⟨5, 0, 0, []⟩], [], [], [], [], 0, run1⟩ := .step _ _ .init (.call _ 5 0)
  have r2 : Reach 2 ⟨[(5, 0)], [⟨5, 0, 1, []⟩], [(0, 0)], [(0, 0)], [], [], 0, run2⟩ := .step _ _ r1 (.send _ 0 ⟨5, 0, 0, []⟩ rfl (by simp))
  have r3 : Reach 2 ⟨[(5, 0)], [⟨5, 0, 2, []⟩], [(0, 0), (0, 1)], [(0, 0), (0, 1)], [], [], 0, run3⟩ := .step _ _ r2 (.send _ 0 ⟨5, 0, 1, []⟩ rfl (by simp))
  have r4 : Reach 2 ⟨[(5, 0)], [⟨5, 0, 2, []⟩], [(0, 0), (0, 1)], [(0, 1)], [], [], 0, run4⟩ := .step _ _ r3 (.transmit _ 0 0 [] [(0, 1)] rfl)
  have r5 : Reach 2 ⟨[(5, 0)], [⟨5, 0, 2, []⟩], [(0, 0), (0, 1)], [(0, 1)], [(0, true)], [], 0, run5⟩ := .step _ _ r4 (.answer _ 0 0 (by simp))
  have r6 : Reach 2 ⟨[(5, 0)], [⟨5, 0, 2, [0]⟩], [(0, 0), (0, 1)], [(0, 1)], [(0, false)], [], 0, run6⟩ := .step _ _ r5 (.take _ 0 0 ⟨5, 0, 2, []⟩ rfl rfl)
  have r7 : Reach 2 ⟨[(5, 0), (5, 0)], [⟨5, 0, 2, [0]⟩], [(0, 0), (0, 1)], [(0, 1)], [(0, false)], [], 0, run7⟩ := .step _ _ r6 (.finish _ 0 ⟨5, 0, 2, [0]⟩ rfl)
  have r8 : Reach 2 ⟨[(5, 0), (5, 0), (5, 0)], [⟨5, 0, 2, [0]⟩], [(0, 0), (0, 1)], [(0, 1)], [(0, false)], [], 0, run8⟩ := .step _ _ r7 (.touch _ 5 0)
  have r9 : Reach 2 ⟨[(5, 0), (5, 0), (5, 0)], [⟨5, 0, 2, [0]⟩], [(0, 0), (0, 1)], [], [(0, false)], [], 0, run9⟩ := .step _ _ r8 (.transmit _ 0 1 [] [] rfl)
  have r10 : Reach 2 ⟨[(5, 0), (5, 0), (5, 0)], [⟨5, 0, 2, [0]⟩], [(0, 0), (0, 1)], [], [(0, false), (0, true)], [], 0, run10⟩ := .step _ _ r9 (.expire _ 0 1 (by simp))
  have r11 : Reach 2 ⟨[(5, 0), (5, 0), (5, 0)], [⟨5, 0, 2, [0]⟩], [(0, 0), (0, 1)], [], [(0, false), (0, true)], [(0, 0), (0, 1)], 1, run11⟩ := .step _ _ r10 (.publish _ 3 [0, 1])
  have r12 : Reach 2 ⟨[(5, 0), (5, 0), (5, 0)], [⟨5, 0, 2, [0]⟩], [(0, 0), (0, 1)], [], [(0, false), (0, true)], [(0, 0)], 1, run12⟩ := .step _ _ r11 (.prove _ 0 1 [(0, 0)] [] rfl)
  refine ⟨_, r12, ?_, rfl⟩
  intro u u' r h1 h2
  simp at h1 h2
  omega

example : RaceFree run12 ∧ run12.length = 29 := by
  obtain ⟨s, h1, h2, h3⟩ := reach12
  exact ⟨h3 ▸ C130_race_free h1 h2, rfl⟩

/-- C130: the condition is needed: two goroutines that make a robust call with the same Request, without synchronisation of their own, race on it. -/
theorem C130_shared_request_races : ∃ s, Reach 2 s ∧ s.calls.map (fun x => (x.user, x.req)) = [(0, 0), (1, 0)] ∧ ¬ RaceFree s.trace := by
  have r1 : Reach 2 ⟨[(0, 0)], [⟨0, 0, 0, []⟩], [], [], [], [], 0, [⟨.user 0, .write (.req 0)⟩, ⟨.user 0, .write (.parts 0)⟩]⟩ := .step _ _ .init (.call _ 0 0)
  have r2 : Reach 2 ⟨[(0, 0), (1, 0)], [⟨0, 0, 0, []⟩, ⟨1, 0, 0, []⟩], [], [], [], [], 0,
      [⟨.user 0, .write (.req 0)⟩, ⟨.user 0, .write (.parts 0)⟩, ⟨.user 1, .write (.req 0)⟩, ⟨.user 1, .write (.parts 1)⟩]⟩ := .step _ _ r1 (.call _ 1 0)
  refine ⟨_, r2, rfl, fun hrf => ?_⟩
  have hb := hrf 0 2 _ _ (by omega) rfl rfl ⟨.req 0, .inl ⟨rfl, .inr rfl⟩⟩
  have := hb_stuck_of hb rfl rfl (by
    intro k e hk he hg o
    rcases k with _ | _ | _ | _ | k <;> simp at he <;> subst he <;> simp)
  cases this

end Resmix.Rrpc.RobustRace
