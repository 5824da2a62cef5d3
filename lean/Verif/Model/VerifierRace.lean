import Verif.Model.VerifierPool
import Verif.Spec.Race
set_option autoImplicit false
/-
The memory accesses of the verifier: the steps of Model/VerifierPool (rrpc/merkle_verifier.go:86-191) with what each of them reads, writes and synchronises on.
-/
namespace Resmix.Rrpc.VerifierRace
open Resmix.Race Resmix.Merkle Resmix.Rrpc

/-- Goroutines: a user of the verifier; the worker while it handles the path check of attempt `a` of call `i`, and while it handles the signature check of the
task object `t`. (One goroutine handles many tasks; telling them apart leaves out orderings, so it can only add races.) -/
inductive Gor
  | user (u : Nat)
  | pathWorker (i a : Nat)
  | sigWorker (t : Nat)
deriving DecidableEq

/-- Memory: the object `o` that is verified, with its certificate slot (popCert and pushCert write it) and all it contains; a certificate, to which the slot
points; of the task object `t` (rrpc/merkle_verifier.go:67-76) the fields that say what to check, and `err`. -/
inductive Loc
  | obj (o : Nat)
  | cert (k : Nat)
  | fields (t : Nat)
  | err (t : Nat)
deriving DecidableEq

/-- Synchronisation objects: the messages on `tasks` (line 102, line 121), the answer on `responseChan`, the entry of the task object `t` in `taskMap` (a
sync.Map: the Store happens before the Loads that see it), its channel `ready`. The compare-and-swap of line 118 orders nothing more than that. -/
inductive Obj
  | pathMsg (i a : Nat)
  | sigMsg (t : Nat)
  | resp (i a : Nat)
  | entry (t : Nat)
  | ready (t : Nat)
deriving DecidableEq

abbrev Entry := Event Gor Loc Obj

/-- A call of Verify: the goroutine that makes it, the object, the certificate in its slot. -/
structure Meta where
  user : Nat
  obj : Nat
  cert : Nat

/-- The verifier; `who`: of each call; `certs`: for each task object, the certificate it refers to (`merkleCert`, line 109); `att`: how often each call
has sent its path check (line 135 starts again); the accesses so far. -/
structure RState where
  inner : PState
  who : List Meta
  certs : List Nat
  att : Nat → Nat
  trace : List Entry

/-- A new verifier with `n` workers. -/
def RState.init (n : Nat) : RState := ⟨.init n, [], [], fun _ => 0, []⟩

/-- A call is in progress. -/
def PPc.active : PPc → Prop
  | .done _ => False
  | _ => True

/-- Goroutine `u` is not in Verify. -/
def RState.free (s : RState) (u : Nat) : Prop := ∀ (j : Nat) (m : Meta) (c : VCall) (pc : PPc), s.who[j]? = some m → s.inner.calls[j]? = some (c, pc) → m.user = u → ¬ PPc.active pc

/-- Before its first call the user has made the certificate (by decoding a message, say). -/
def made (who : List Meta) (u k : Nat) : List Entry := if ∃ m ∈ who, m.cert = k then [] else [⟨.user u, .write (.cert k)⟩]

/-- One step. The lines are those of rrpc/merkle_verifier.go. -/
inductive RStep (S : SigScheme) (H : HashFn) (n : Nat) : RState → RState → Prop
  /-- Goroutine `u` has made or changed the object `o`, and calls Verify. -/
  | call (s : RState) (c : VCall) (u o k : Nat) : s.inner.crashed = false → s.free u →
      RStep S H n s { s with inner := { s.inner with calls := s.inner.calls ++ [(c, .start)] }, who := s.who ++ [⟨u, o, k⟩]
                             trace := s.trace ++ (made s.who u k ++ [⟨.user u, .write (.obj o)⟩]) }
  /-- A goroutine that is not in Verify changes an object that it has had verified. -/
  | touch (s : RState) (i : Nat) (m : Meta) : s.who[i]? = some m → s.free m.user →
      RStep S H n s { s with trace := s.trace ++ [⟨.user m.user, .write (.obj m.obj)⟩] }
  /-- Lines 87-92. -/
  | noCert (s : RState) (i : Nat) (c : VCall) (m : Meta) : s.inner.crashed = false → s.inner.calls[i]? = some (c, .start) → c.cert = none → s.who[i]? = some m →
      RStep S H n s { s with inner := s.inner.goto i c (.done (.error emptyCertificate)), trace := s.trace ++ [⟨.user m.user, .write (.obj m.obj)⟩] }
  /-- Lines 87, 94, 102. -/
  | submit (s : RState) (i : Nat) (c : VCall) (cert : MerkleCertificate) (m : Meta) : s.inner.crashed = false → s.inner.calls[i]? = some (c, .start) →
      c.cert = some cert → s.inner.chan.length < tasksCap n → s.who[i]? = some m →
      RStep S H n s { s with inner := PState.goto { s.inner with chan := s.inner.chan ++ [PTask.path i] } i c .queued, att := fun j => if j = i then s.att i + 1 else s.att j
                             trace := s.trace ++ [⟨.user m.user, .write (.obj m.obj)⟩, ⟨.user m.user, .read (.cert m.cert)⟩, ⟨.user m.user, .release (.pathMsg i (s.att i + 1))⟩] }
  /-- Line 146. -/
  | pickPath (s : RState) (i : Nat) (q : List PTask) : s.inner.crashed = false → 0 < s.inner.idle → s.inner.chan = .path i :: q →
      RStep S H n s { s with inner := { s.inner with chan := q, idle := s.inner.idle - 1, busy := .path i :: s.inner.busy }
                             trace := s.trace ++ [⟨.pathWorker i (s.att i), .acquire (.pathMsg i (s.att i))⟩] }
  /-- Line 146. -/
  | pickSig (s : RState) (t : Nat) (q : List PTask) : s.inner.crashed = false → 0 < s.inner.idle → s.inner.chan = .sig t :: q →
      RStep S H n s { s with inner := { s.inner with chan := q, idle := s.inner.idle - 1, busy := .sig t :: s.inner.busy }
                             trace := s.trace ++ [⟨.sigWorker t, .acquire (.sigMsg t)⟩] }
  /-- Lines 161-169: reads the certificate, hashes the object. -/
  | answer (s : RState) (l₁ l₂ : List PTask) (i : Nat) (c : VCall) (cert : MerkleCertificate) (m : Meta) : s.inner.crashed = false →
      s.inner.busy = l₁ ++ PTask.path i :: l₂ → s.inner.calls[i]? = some (c, .queued) → c.cert = some cert → s.who[i]? = some m →
      RStep S H n s { s with inner := PState.goto { s.inner with busy := l₁ ++ l₂, idle := s.inner.idle + 1 } i c (.answered (authPath H cert c.enc))
                             trace := s.trace ++ [⟨.pathWorker i (s.att i), .read (.cert m.cert)⟩, ⟨.pathWorker i (s.att i), .read (.obj m.obj)⟩, ⟨.pathWorker i (s.att i), .release (.resp i (s.att i))⟩] }
  | answerTwice (s : RState) (i : Nat) : s.inner.crashed = false → PTask.path i ∈ s.inner.busy → (∀ c, s.inner.calls[i]? ≠ some (c, .queued)) →
      RStep S H n s { s with inner := { s.inner with crashed := true } }
  /-- Line 103. -/
  | pathOk (s : RState) (i : Nat) (c : VCall) (m : Meta) : s.inner.crashed = false → s.inner.calls[i]? = some (c, .answered (.ok ())) → s.who[i]? = some m →
      RStep S H n s { s with inner := s.inner.goto i c .authed, trace := s.trace ++ [⟨.user m.user, .acquire (.resp i (s.att i))⟩] }
  /-- Lines 103-105, and the deferred pushCert of line 88. -/
  | pathBad (s : RState) (i : Nat) (c : VCall) (e : Fail) (m : Meta) : s.inner.crashed = false → s.inner.calls[i]? = some (c, .answered (.error e)) → s.who[i]? = some m →
      RStep S H n s { s with inner := s.inner.goto i c (.done (.error e))
                             trace := s.trace ++ [⟨.user m.user, .acquire (.resp i (s.att i))⟩, ⟨.user m.user, .write (.obj m.obj)⟩] }
  /-- Lines 107-117: the LoadOrStore sees an entry. -/
  | load (s : RState) (i : Nat) (c : VCall) (cert : MerkleCertificate) (t : Nat) (m : Meta) : s.inner.crashed = false → s.inner.calls[i]? = some (c, .authed) →
      c.cert = some cert → s.inner.map.lookup (fitDigest cert.root) = some t → s.who[i]? = some m →
      RStep S H n s { s with inner := s.inner.goto i c (.loaded t), trace := s.trace ++ [⟨.user m.user, .acquire (.entry t)⟩] }
  /-- Lines 107-117: a new entry, of a task object made here. -/
  | store (s : RState) (i : Nat) (c : VCall) (cert : MerkleCertificate) (m : Meta) : s.inner.crashed = false → s.inner.calls[i]? = some (c, .authed) →
      c.cert = some cert → s.inner.map.lookup (fitDigest cert.root) = none → s.who[i]? = some m →
      RStep S H n s { inner := PState.goto { s.inner with map := s.inner.map.insert (fitDigest cert.root) s.inner.tasks.length, tasks := s.inner.tasks ++ [{ pk := c.pk, cert := cert, taken := false, result := none }] } i c (.loaded s.inner.tasks.length)
                      who := s.who, certs := s.certs ++ [m.cert], att := s.att
                      trace := s.trace ++ [⟨.user m.user, .write (.fields s.inner.tasks.length)⟩, ⟨.user m.user, .write (.err s.inner.tasks.length)⟩, ⟨.user m.user, .release (.entry s.inner.tasks.length)⟩] }
  /-- Line 118: the pointer to the atomic is read. -/
  | take (s : RState) (i : Nat) (c : VCall) (t : Nat) (task : VTask) (m : Meta) : s.inner.crashed = false → s.inner.calls[i]? = some (c, .loaded t) →
      s.inner.tasks[t]? = some task → task.taken = false → s.who[i]? = some m →
      RStep S H n s { s with inner := PState.goto { s.inner with tasks := s.inner.tasks.set t { task with taken := true } } i c (.chosen t)
                             trace := s.trace ++ [⟨.user m.user, .read (.fields t)⟩] }
  | join (s : RState) (i : Nat) (c : VCall) (t : Nat) (task : VTask) (m : Meta) : s.inner.crashed = false → s.inner.calls[i]? = some (c, .loaded t) →
      s.inner.tasks[t]? = some task → task.taken = true → s.who[i]? = some m →
      RStep S H n s { s with inner := s.inner.goto i c (.waiting t false), trace := s.trace ++ [⟨.user m.user, .read (.fields t)⟩] }
  /-- Line 121. -/
  | submitSig (s : RState) (i : Nat) (c : VCall) (t : Nat) (m : Meta) : s.inner.crashed = false → s.inner.calls[i]? = some (c, .chosen t) →
      s.inner.chan.length < tasksCap n → s.who[i]? = some m →
      RStep S H n s { s with inner := PState.goto { s.inner with chan := s.inner.chan ++ [PTask.sig t] } i c (.waiting t true)
                             trace := s.trace ++ [⟨.user m.user, .release (.sigMsg t)⟩] }
  /-- Lines 171-185: reads what to check, and the certificate; writes `err` (here in every case, in the code only if the signature is bad); closes `ready`. -/
  | work (s : RState) (l₁ l₂ : List PTask) (t : Nat) (task : VTask) (k : Nat) : s.inner.crashed = false → s.inner.busy = l₁ ++ PTask.sig t :: l₂ →
      s.inner.tasks[t]? = some task → task.result = none → sigResult S task.pk task.cert ≠ .error .panic → s.certs[t]? = some k →
      RStep S H n s { s with inner := { s.inner with busy := l₁ ++ l₂, idle := s.inner.idle + 1, tasks := s.inner.tasks.set t { task with result := some (sigResult S task.pk task.cert) } }
                             trace := s.trace ++ [⟨.sigWorker t, .read (.fields t)⟩, ⟨.sigWorker t, .read (.cert k)⟩, ⟨.sigWorker t, .write (.err t)⟩, ⟨.sigWorker t, .release (.ready t)⟩] }
  | workCrash (s : RState) (t : Nat) (task : VTask) : s.inner.crashed = false → PTask.sig t ∈ s.inner.busy → s.inner.tasks[t]? = some task →
      sigResult S task.pk task.cert = .error .panic → RStep S H n s { s with inner := { s.inner with crashed := true } }
  | workTwice (s : RState) (t : Nat) (task : VTask) (r : Go Unit) : s.inner.crashed = false → PTask.sig t ∈ s.inner.busy → s.inner.tasks[t]? = some task →
      task.result = some r → RStep S H n s { s with inner := { s.inner with crashed := true } }
  /-- Lines 125-126, 139, and the deferred pushCert. -/
  | accept (s : RState) (i : Nat) (c : VCall) (t : Nat) (mine : Bool) (task : VTask) (m : Meta) : s.inner.crashed = false →
      s.inner.calls[i]? = some (c, .waiting t mine) → s.inner.tasks[t]? = some task → task.result = some (.ok ()) → s.who[i]? = some m →
      RStep S H n s { s with inner := s.inner.goto i c (.done (.ok ()))
                             trace := s.trace ++ [⟨.user m.user, .acquire (.ready t)⟩, ⟨.user m.user, .read (.err t)⟩, ⟨.user m.user, .write (.obj m.obj)⟩] }
  /-- Lines 125-135: also compares the signatures of the two certificates. -/
  | retry (s : RState) (i : Nat) (c : VCall) (cert : MerkleCertificate) (t : Nat) (task : VTask) (e : Fail) (m : Meta) (k : Nat) : s.inner.crashed = false →
      s.inner.calls[i]? = some (c, .waiting t false) → c.cert = some cert → s.inner.tasks[t]? = some task → task.result = some (.error e) →
      task.cert.signature = cert.signature → s.who[i]? = some m → s.certs[t]? = some k →
      RStep S H n s { s with inner := PState.goto { s.inner with map := s.inner.map.erase (fitDigest cert.root) } i c .start
                             trace := s.trace ++ [⟨.user m.user, .acquire (.ready t)⟩, ⟨.user m.user, .read (.err t)⟩, ⟨.user m.user, .read (.fields t)⟩, ⟨.user m.user, .read (.cert k)⟩,
                               ⟨.user m.user, .read (.cert m.cert)⟩, ⟨.user m.user, .write (.obj m.obj)⟩] }
  /-- Lines 125-137, and the deferred pushCert. -/
  | reject (s : RState) (i : Nat) (c : VCall) (cert : MerkleCertificate) (t : Nat) (mine : Bool) (task : VTask) (e : Fail) (m : Meta) (k : Nat) : s.inner.crashed = false →
      s.inner.calls[i]? = some (c, .waiting t mine) → c.cert = some cert → s.inner.tasks[t]? = some task → task.result = some (.error e) →
      (mine = true ∨ task.cert.signature ≠ cert.signature) → s.who[i]? = some m → s.certs[t]? = some k →
      RStep S H n s { s with inner := PState.goto { s.inner with map := s.inner.map.erase (fitDigest cert.root) } i c (.done (.error e))
                             trace := s.trace ++ [⟨.user m.user, .acquire (.ready t)⟩, ⟨.user m.user, .read (.err t)⟩, ⟨.user m.user, .read (.fields t)⟩, ⟨.user m.user, .read (.cert k)⟩,
                               ⟨.user m.user, .read (.cert m.cert)⟩, ⟨.user m.user, .write (.obj m.obj)⟩] }
  /-- Lines 154-155. -/
  | exit (s : RState) : s.inner.crashed = false → s.inner.stopped = true → 0 < s.inner.idle → RStep S H n s { s with inner := { s.inner with idle := s.inner.idle - 1 } }
  /-- rrpc/gc.go:15-32: the cleanup looks only at the type of the entry, which is not GCable, and drops it. -/
  | clean (s : RState) (d : Digest) : s.inner.crashed = false → RStep S H n s { s with inner := { s.inner with map := s.inner.map.erase d } }
  /-- Lines 187-191. -/
  | stop (s : RState) : s.inner.crashed = false → RStep S H n s { s with inner := { s.inner with stopped := true } }

/-- Reachable states of a verifier with `n` workers. -/
inductive RReach (S : SigScheme) (H : HashFn) (n : Nat) : RState → Prop
  | init : RReach S H n (.init n)
  | step (s s' : RState) : RReach S H n s → RStep S H n s s' → RReach S H n s'

/-- Every object, and every certificate, is used by one goroutine only. -/
def Separate (s : RState) : Prop := ∀ (i j : Nat) (m m' : Meta), s.who[i]? = some m → s.who[j]? = some m' → m.obj = m'.obj ∨ m.cert = m'.cert → m.user = m'.user

end Resmix.Rrpc.VerifierRace
