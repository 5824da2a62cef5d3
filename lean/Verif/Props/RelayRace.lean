import Verif.Proofs.RelayRace
set_option autoImplicit false
/-
C131: a relay that serves any number of clients and servers has no data races: in particular its handlers may read the call id of a parcel that another goroutine is already
sending, and a server's response may be passed through the relay to a client's stream without a copy.
-/
namespace Resmix.Rrpc.RelayRace
open Resmix.Race

/-- C131: no execution of a relay has a data race on the requests, the servers' responses, or the responses to clients. -/
theorem C131_race_free {s : State} (h : Reach s) : RaceFree s.trace := by
  obtain ⟨γ, -, -, h2⟩ := h.own
  exact h2.free

def run1 : List Entry := [⟨.handler 4, .write (.rqst 0)⟩]
def run2 : List Entry := run1 ++ [⟨.handler 4, .read (.rqst 0)⟩, ⟨.handler 4, .release (.toSend 0)⟩]
def run3 : List Entry := run2 ++ [⟨.sender 1, .acquire (.toSend 0)⟩, ⟨.sender 1, .read (.rqst 0)⟩]
def run4 : List Entry := run3 ++ [⟨.handler 4, .read (.rqst 0)⟩, ⟨.handler 4, .release (.entry 0)⟩]
def run5 : List Entry := run4 ++ [⟨.receiver 1, .write (.resp 0)⟩, ⟨.receiver 1, .release (.output 0)⟩]
def run6 : List Entry := run5 ++ [⟨.incoming, .acquire (.output 0)⟩, ⟨.incoming, .read (.resp 0)⟩, ⟨.incoming, .acquire (.entry 0)⟩, ⟨.incoming, .write (.out 0)⟩, ⟨.incoming, .release (.back 0)⟩]
def run7 : List Entry := run6 ++ [⟨.responder 4, .acquire (.back 0)⟩, ⟨.responder 4, .read (.out 0)⟩, ⟨.responder 4, .read (.resp 0)⟩]
def run8 : List Entry := run7 ++ [⟨.handler 4, .write (.rqst 1)⟩]
def run9 : List Entry := run8 ++ [⟨.handler 4, .read (.rqst 1)⟩, ⟨.handler 4, .write (.out 1)⟩, ⟨.handler 4, .release (.back 1)⟩]
def run10 : List Entry := run9 ++ [⟨.responder 4, .acquire (.back 1)⟩, ⟨.responder 4, .read (.out 1)⟩]
def run11 : List Entry := run10 ++ [⟨.receiver 2, .write (.resp 1)⟩, ⟨.receiver 2, .release (.output 1)⟩]
def run12 : List Entry := run11 ++ [⟨.incoming, .acquire (.output 1)⟩, ⟨.incoming, .read (.resp 1)⟩]
def run13 : List Entry := run12 ++ [⟨.cleanup, .acquire (.entry 0)⟩]

/-- A run: a request is passed on and sent before it is stored; the response goes to the client; a second request fails; a response that nobody waits for is dropped; the cleanup runs. -/
theorem reach13 : ∃ s, Reach s ∧ s.trace = run13 := by
  have r1 : Reach ⟨[4], [], [], [], [], run1⟩ := .step _ _ .init (.recv _ 4)
  have r2 : Reach ⟨[4], [(0, 1)], [], [], [], run2⟩ := .step _ _ r1 (.send _ 0 4 1 rfl)
  have r3 : Reach ⟨[4], [], [], [], [], run3⟩ := .step _ _ r2 (.transmit _ 0 1 [] [] rfl)
  have r4 : Reach ⟨[4], [], [0], [], [], run4⟩ := .step _ _ r3 (.store _ 0 4 rfl)
  have r5 : Reach ⟨[4], [], [0], [true], [], run5⟩ := .step _ _ r4 (.receive _ 1)
  have r6 : Reach ⟨[4], [], [0], [false], [⟨true, 4, some 0⟩], run6⟩ := .step _ _ r5 (.forward _ 0 0 4 rfl (by simp) rfl)
  have r7 : Reach ⟨[4], [], [0], [false], [⟨false, 4, some 0⟩], run7⟩ := .step _ _ r6 (.respond _ 0 ⟨true, 4, some 0⟩ rfl rfl)
  have r8 : Reach ⟨[4, 4], [], [0], [false], [⟨false, 4, some 0⟩], run8⟩ := .step _ _ r7 (.recv _ 4)
  have r9 : Reach ⟨[4, 4], [], [0], [false], [⟨false, 4, some 0⟩, ⟨true, 4, none⟩], run9⟩ := .step _ _ r8 (.fail _ 1 4 rfl)
  have r10 : Reach ⟨[4, 4], [], [0], [false], [⟨false, 4, some 0⟩, ⟨false, 4, none⟩], run10⟩ := .step _ _ r9 (.respond _ 1 ⟨true, 4, none⟩ rfl rfl)
  have r11 : Reach ⟨[4, 4], [], [0], [false, true], [⟨false, 4, some 0⟩, ⟨false, 4, none⟩], run11⟩ := .step _ _ r10 (.receive _ 2)
  have r12 : Reach ⟨[4, 4], [], [0], [false, false], [⟨false, 4, some 0⟩, ⟨false, 4, none⟩], run12⟩ := .step _ _ r11 (.discard _ 1 rfl)
  have r13 : Reach ⟨[4, 4], [], [0], [false, false], [⟨false, 4, some 0⟩, ⟨false, 4, none⟩], run13⟩ := .step _ _ r12 (.clean _ 0 (by simp))
  exact ⟨_, r13, rfl⟩

example : RaceFree run13 ∧ run13.length = 28 := by
  obtain ⟨s, h1, h3⟩ := reach13
  exact ⟨h3 ▸ C131_race_free h1, rfl⟩

/-- C131: and the handler's last reads of a request are not ordered with the sending of it (so the absence of writes after line 146 is what matters): in the run above, neither of
the two reads happens before the other. -/
theorem C131_concurrent_reads : ∃ s, Reach s ∧ s.trace[4]? = some ⟨.sender 1, .read (.rqst 0)⟩ ∧ s.trace[5]? = some ⟨.handler 4, .read (.rqst 0)⟩ ∧ ¬ HB s.trace 4 5 ∧ ¬ HB s.trace 5 4 := by
  have r1 : Reach ⟨[4], [], [], [], [], run1⟩ := .step _ _ .init (.recv _ 4)
  have r2 : Reach ⟨[4], [(0, 1)], [], [], [], run2⟩ := .step _ _ r1 (.send _ 0 4 1 rfl)
  have r3 : Reach ⟨[4], [], [], [], [], run3⟩ := .step _ _ r2 (.transmit _ 0 1 [] [] rfl)
  have r4 : Reach ⟨[4], [], [0], [], [], run4⟩ := .step _ _ r3 (.store _ 0 4 rfl)
  refine ⟨_, r4, rfl, rfl, fun hb => ?_, fun hb => ?_⟩
  · have := hb_stuck_of hb rfl rfl (by
      intro k e hk he hg o
      rcases k with _ | _ | _ | _ | _ | _ | _ | k <;> simp [run4, run3, run2, run1] at he <;> subst he <;> simp at hg ⊢)
    cases this
  · have : ∀ i j, HB run4 i j → i < j := by
      intro i j h
      induction h with
      | program h _ _ _ => exact h
      | sync h _ _ _ _ => exact h
      | trans _ _ a b => omega
    exact absurd (this _ _ hb) (by omega)

end Resmix.Rrpc.RelayRace
