import Verif.Proofs.ServerRaceD
set_option autoImplicit false
/-
C129: a server that serves robust calls has no data races.
-/
namespace Resmix.Rrpc.ServerRace
open Resmix.Race

/-- C129: in every execution of a server's robust-call goroutines (any number of streams, calls and relays, any scheduling) there is no data race on the parcels and their
notes, the collector's tasks and map, and the responses. -/
theorem C129_race_free {n k : Nat} {s : State} (h : Reach n k s) : RaceFree s.trace := by
  obtain ⟨γ, own, -, h2⟩ := h.own
  exact h2.free

/-- Two parcels of call 7 come in on two streams; the call is run; its two responses are sent. -/
def run1 : List Entry := [⟨.stream 0, .write (.parcel 0)⟩, ⟨.stream 0, .release (.queued 0)⟩]
def run2 : List Entry := run1 ++ [⟨.stream 1, .write (.parcel 1)⟩, ⟨.stream 1, .release (.queued 1)⟩]
def run3 : List Entry := run2 ++ [⟨.collector, .acquire (.queued 0)⟩, ⟨.collector, .read (.parcel 0)⟩, ⟨.collector, .write .map⟩, ⟨.collector, .write (.task 0)⟩]
def run4 : List Entry := run3 ++ [⟨.collector, .read (.task 0)⟩]
def run5 : List Entry := run4 ++ [⟨.collector, .acquire (.queued 1)⟩, ⟨.collector, .read (.parcel 1)⟩, ⟨.collector, .read .map⟩, ⟨.collector, .write (.task 0)⟩]
def run6 : List Entry := run5 ++ [⟨.collector, .read (.task 0)⟩, ⟨.collector, .read (.parcel 0)⟩, ⟨.collector, .write .map⟩, ⟨.collector, .release (.spawn 0)⟩]
def run7 : List Entry := run6 ++ [⟨.runner 0, .acquire (.spawn 0)⟩, ⟨.runner 0, .read (.task 0)⟩, ⟨.runner 0, .read (.parcel 0)⟩, ⟨.runner 0, .read (.parcel 1)⟩, ⟨.runner 0, .write (.task 0)⟩]
def run8 : List Entry := run7 ++ [⟨.runner 0, .write (.common 0)⟩, ⟨.runner 0, .write (.resp 0)⟩, ⟨.runner 0, .write (.resp 1)⟩, ⟨.runner 0, .write (.parcel 0)⟩]
def run9 : List Entry := run8 ++ [⟨.runner 0, .release (.back 0)⟩]
def run10 : List Entry := run9 ++ [⟨.sender 0, .acquire (.back 0)⟩, ⟨.sender 0, .read (.resp 0)⟩, ⟨.sender 0, .read (.parcel 0)⟩, ⟨.sender 0, .read (.common 0)⟩]
def run11 : List Entry := run10 ++ [⟨.runner 0, .release (.back 1)⟩]
def run12 : List Entry := run11 ++ [⟨.sender 1, .acquire (.back 1)⟩, ⟨.sender 1, .read (.resp 1)⟩, ⟨.sender 1, .read (.parcel 0)⟩, ⟨.sender 1, .read (.common 0)⟩]

theorem reach8 : Reach 2 2 ⟨[7, 7], [], [⟨[0, 1], .sending [0, 1]⟩], [], none, [⟨.made, [.parcel 0, .common 0]⟩, ⟨.made, [.parcel 0, .common 0]⟩], run8⟩ := by
  have r1 : Reach 2 2 ⟨[7], [0], [], [], none, [], run1⟩ := .step _ _ .init (.recv _ 0 7)
  have r2 : Reach 2 2 ⟨[7, 7], [0, 1], [], [], none, [], run2⟩ := .step _ _ r1 (.recv _ 1 7)
  have r3 : Reach 2 2 ⟨[7, 7], [1], [⟨[0], .collecting⟩], [(7, 0)], some 0, [], run3⟩ := .step _ _ r2 (.create _ 0 7 [1] rfl rfl rfl rfl)
  have r4 : Reach 2 2 ⟨[7, 7], [1], [⟨[0], .collecting⟩], [(7, 0)], none, [], run4⟩ := .step _ _ r3 (.more _ 0 ⟨[0], .collecting⟩ rfl rfl (by simp))
  have r5 : Reach 2 2 ⟨[7, 7], [], [⟨[0, 1], .collecting⟩], [(7, 0)], some 0, [], run5⟩ := .step _ _ r4 (.add _ 1 7 0 ⟨[0], .collecting⟩ [] rfl rfl rfl rfl rfl)
  have r6 : Reach 2 2 ⟨[7, 7], [], [⟨[0, 1], .spawned⟩], [], none, [], run6⟩ := .step _ _ r5 (.spawn _ 0 7 ⟨[0, 1], .collecting⟩ 0 rfl rfl (by simp) rfl rfl)
  have r7 : Reach 2 2 ⟨[7, 7], [], [⟨[0, 1], .running⟩], [], none, [], run7⟩ := .step _ _ r6 (.begin_ _ 0 ⟨[0, 1], .spawned⟩ rfl rfl)
  exact .step _ _ r7 (.reply _ 0 ⟨[0, 1], .running⟩ 0 rfl rfl rfl)

theorem reach10 : Reach 2 2 ⟨[7, 7], [], [⟨[0, 1], .sending [1]⟩], [], none, [⟨.taken, [.parcel 0, .common 0]⟩, ⟨.made, [.parcel 0, .common 0]⟩], run10⟩ := by
  have r9 : Reach 2 2 ⟨[7, 7], [], [⟨[0, 1], .sending [1]⟩], [], none, [⟨.channel, [.parcel 0, .common 0]⟩, ⟨.made, [.parcel 0, .common 0]⟩], run9⟩ :=
    .step _ _ reach8 (.send _ 0 0 [1] ⟨[0, 1], .sending [0, 1]⟩ ⟨.made, [.parcel 0, .common 0]⟩ rfl rfl rfl)
  exact .step _ _ r9 (.deliver _ 0 0 ⟨.channel, [.parcel 0, .common 0]⟩ rfl rfl)

/-- A run in which two responses with the same note are read by two goroutines. -/
theorem reach12 : Reach 2 2 ⟨[7, 7], [], [⟨[0, 1], .sending []⟩], [], none, [⟨.taken, [.parcel 0, .common 0]⟩, ⟨.taken, [.parcel 0, .common 0]⟩], run12⟩ := by
  have r11 : Reach 2 2 ⟨[7, 7], [], [⟨[0, 1], .sending []⟩], [], none, [⟨.taken, [.parcel 0, .common 0]⟩, ⟨.channel, [.parcel 0, .common 0]⟩], run11⟩ :=
    .step _ _ reach10 (.send _ 0 1 [] ⟨[0, 1], .sending [1]⟩ ⟨.made, [.parcel 0, .common 0]⟩ rfl rfl rfl)
  exact .step _ _ r11 (.deliver _ 1 1 ⟨.channel, [.parcel 0, .common 0]⟩ rfl rfl)

example : RaceFree run12 ∧ run12.length = 36 := ⟨C129_race_free reach12, rfl⟩

/-- The responses of a call share its note, so all of them must be signed before the first is sent: one more write of the note by the goroutine that runs the call, after
the first response was sent, is a race with the encoding of that response. -/
theorem C129_note_is_final : ∃ s p, Reach 2 2 s ∧ s.tasks.map Task.phase = [.sending [1]] ∧ (∀ r ∈ s.resps, .parcel p ∈ r.refs) ∧ RaceFree s.trace ∧
    ¬ RaceFree (s.trace ++ [⟨.runner 0, .write (.parcel p)⟩]) := by
  refine ⟨_, 0, reach10, rfl, by simp, C129_race_free reach10, fun hrf => ?_⟩
  have hb := hrf 29 31 ⟨.sender 0, .read (.parcel 0)⟩ ⟨.runner 0, .write (.parcel 0)⟩ (by omega) rfl rfl ⟨.parcel 0, .inr ⟨rfl, rfl⟩⟩
  have := hb_stuck_of hb rfl rfl (by
    intro k e hk he hg o
    have hk' : k = 29 ∨ k = 30 ∨ k = 31 := by
      have := (List.getElem?_eq_some_iff.1 he).1
      have e : (run10 ++ [(⟨.runner 0, .write (.parcel 0)⟩ : Entry)]).length = 32 := rfl
      rw [e] at this
      omega
    rcases hk' with rfl | rfl | rfl
    · have : e = ⟨.sender 0, .read (.parcel 0)⟩ := Option.some.inj (he.symm.trans rfl)
      rw [this]; simp
    · have : e = ⟨.sender 0, .read (.common 0)⟩ := Option.some.inj (he.symm.trans rfl)
      rw [this]; simp
    · have : e = ⟨.runner 0, .write (.parcel 0)⟩ := Option.some.inj (he.symm.trans rfl)
      rw [this] at hg; cases hg)
  cases this

end Resmix.Rrpc.ServerRace
