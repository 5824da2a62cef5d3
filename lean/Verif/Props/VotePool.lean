import Verif.Proofs.VotePool
import Verif.Proofs.Bls
import Verif.Proofs.GoMap
set_option autoImplicit false
/-
C135: vote checks by several goroutines at once.
-/
namespace Resmix.Tibe.VotePool
variable {B : Bls}

/-- C135. Goroutines call `ValidateVote` and `ReconstructDecrypter` of one node and shares arrive, in any interleaving of the callers and the node's `cpus` workers. A call that
has returned has returned what the function run alone returns on the node as it was when the call was made: no call sees another one's votes or errors, nor a share that
arrives while it runs. -/
theorem C135_linearizable (n : Node B) (cpus : Nat) (es : List (Ev B)) (s : State B) (hr : run (init n cpus) es = some s) (c : Nat) (r : Go (Option B.G2)) (h : Returned s c r) :
    ∃ pre req post, es = pre ++ .call req :: post ∧ callsIn pre = c ∧ r = answer (nodeAfter n pre) req := by
  obtain ⟨cl, hc, hpc⟩ := h
  have hok := (run_inv (inv_init n cpus) hr).2 c cl hc
  unfold CallOk at hok
  rw [hpc] at hok
  rcases run_hist hr hc with ⟨cl0, h0, -⟩ | ⟨pre, post, h1, h2, h3⟩
  · cases h0
  · refine ⟨pre, cl.req, post, h1, ?_, ?_⟩
    · simpa [init] using h2
    · rw [hok.1, h3]; rfl

/-- C135. None of this ends the process if the shares' polynomials have coefficients. -/
theorem C135_no_crash (n : Node B) (cpus : Nat) (es : List (Ev B)) (s : State B) (hr : run (init n cpus) es = some s) (hp : ProperShares n es) : s.crashed = false :=
  (run_proper (s := init n cpus) ⟨hp.1, fun c cl hc => by cases hc⟩ (inv_init n cpus) rfl hp.2 hr).2.2

/-- C135. Every call returns: from any point on, the calls made so far and the workers can only make a bounded number of steps, and when they cannot make another one, every call
made so far has returned (with the answer of `C135_linearizable`). So the callers and the workers never wait for each other for ever, though the work queue has room for only
`cpus` votes and a call may have any number of them. -/
theorem C135_calls_return (n : Node B) (cpus : Nat) (hcpu : 0 < cpus) (es : List (Ev B)) (s : State B) (hr : run (init n cpus) es = some s) (hp : ProperShares n es) :
    (∃ N, ∀ fs s', (∀ e ∈ fs, e.internal = true) → run s fs = some s' → fs.length ≤ N) ∧
    ∀ fs s', (∀ e ∈ fs, e.internal = true) → run s fs = some s' → (∀ e, e.internal = true → step s' e = none) → ∀ c < callsIn es, ∃ r, Returned s' c r := by
  refine ⟨⟨work s, fun fs s' hi h => by have := run_work hi h; omega⟩, ?_⟩
  intro fs s' hi hrun hstuck c hc
  have hall := run_append hr hrun
  obtain ⟨-, hinv, hcr⟩ := run_proper (s := init n cpus) ⟨hp.1, fun c cl hc => by cases hc⟩ (inv_init n cpus) rfl (es := es ++ fs) (fun name sh hm => by
    rcases List.mem_append.1 hm with hm | hm
    · exact hp.2 name sh hm
    · cases hi _ hm) hall
  have hlen : c < s'.calls.length := by
    have := run_calls_length hall
    rw [this]
    show c < 0 + _
    rw [callsIn_append]; omega
  by_contra hno
  have hget : s'.calls[c]? = some s'.calls[c] := List.getElem?_eq_getElem hlen
  have hne : s'.workers ≠ [] := by
    intro h0
    have := run_workers hall
    rw [h0] at this
    simp [init] at this
    omega
  obtain ⟨e, s'', he, hs⟩ := hinv.progress hcr hne hget (fun r hr => hno ⟨r, _, hget, hr⟩)
  rw [hstuck e he] at hs
  cases hs


/-! A node with a share, a valid and an invalid vote; two goroutines check votes at once, and another share of the same name arrives meanwhile. -/

def exShare : VssShare Bls.toy := { expoly := ⟨[(1 : Fr)]⟩, share := ⟨1, 1⟩, mpk := (1 : Fr) }
def exNode : Node Bls.toy := { poly := ⟨[1]⟩, pk := (1 : Fr), secret := 1, shares := [([97], exShare)] }
def exGood : Vote Bls.toy := { index := 0, id := [5], sig := Bls.toy.hashG2 [5] }
def exBad : Vote Bls.toy := { index := 0, id := [5], sig := Bls.toy.hashG2 [6] }

theorem exGood_ok : Node.checkVote exShare.expoly exGood = .ok () := by
  have h : isValidSignature (B := Bls.toy) exGood.id exGood.sig (1 : Fr) = true := by
    simp only [isValidSignature, exGood, decide_eq_true_eq]; rfl
  show (if isValidSignature (B := Bls.toy) exGood.id exGood.sig (1 : Fr) = true then Except.ok () else Except.error (Fail.err .unknown "invalid signature")) = _
  rw [if_pos h]

theorem exBad_err : Node.checkVote exShare.expoly exBad = .error (.err .unknown "invalid signature") := by
  have h : ¬ isValidSignature (B := Bls.toy) exBad.id exBad.sig (1 : Fr) = true := by
    simp only [isValidSignature, exBad, decide_eq_true_eq, Bls.toy, LinearMap.mul_apply_apply, one_mul]
    decide
  show (if isValidSignature (B := Bls.toy) exBad.id exBad.sig (1 : Fr) = true then Except.ok () else Except.error (Fail.err .unknown "invalid signature")) = _
  rw [if_neg h]

def exRun : List (Ev Bls.toy) :=
  [.call (.validate [97] exGood), .call (.reconstruct [97] [exGood, exBad]), .send 1, .send 0, .take 0, .receiveShare [97] { exShare with expoly := ⟨[(2 : Fr)]⟩ }, .take 1, .send 1,
   .check 0, .check 1, .close 0, .close 1, .take 0, .check 0, .recv 1, .recv 1, .recv 0]

example : ProperShares exNode exRun := by
  constructor
  · intro name sh h
    simp only [exNode, GoMap.lookup] at h
    split at h
    · injection h with h; subst h; simp [exShare]
    · cases h
  · intro name sh h
    simp [exRun] at h
    obtain ⟨-, rfl⟩ := h
    simp

example : ∃ s, run (init exNode 2) exRun = some s ∧ Returned s 0 (.ok none) ∧ Returned s 1 (.error (.err .unknown "invalid signature")) := by
  have hl : GoMap.lookup exNode.shares [97] = some exShare := rfl
  have key : ∀ o : Option (State Bls.toy), o = run (init exNode 2) exRun → (∃ s, o = some s ∧ Returned s 0 (.ok none) ∧ Returned s 1 (.error (.err .unknown "invalid signature"))) := by
    intro o ho
    simp [exRun, run, step, init, begin, hl, Req.votes, exGood_ok, exBad_err, setResp, final] at ho
    subst ho
    exact ⟨_, rfl, ⟨_, rfl, rfl⟩, ⟨_, rfl, rfl⟩⟩
  exact key _ rfl

end Resmix.Tibe.VotePool
