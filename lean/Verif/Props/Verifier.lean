import Verif.Proofs.VerifierSeq
set_option autoImplicit false
/-
C46, C47, C73, C74, C79: verifying certificates.
-/
namespace Resmix.Rrpc
open Resmix.Merkle

/-- The signature in a certificate is one of `pk` on the root in the certificate. -/
def ValidSig (S : SigScheme) (pk : Bytes) (cert : MerkleCertificate) : Prop :=
  pk.length = 32 ∧ S.valid pk (fitDigest cert.root) cert.signature = true

theorem sigResult_ok (S : SigScheme) (pk : Bytes) (cert : MerkleCertificate) : sigResult S pk cert = .ok () ↔ ValidSig S pk cert := by
  unfold sigResult owVerify ValidSig
  by_cases h : pk.length = 32
  · simp only [h, ne_eq, not_true, if_false, true_and]
    cases S.valid pk (fitDigest cert.root) cert.signature <;> simp
  · simp [h]

/-- C46 fails: once a root has been verified, a certificate with this root is accepted for every key and with any signature, one after
the other. `bad` is rejected by a verifier that has not seen the root. -/
theorem C46_cached_root_refuted (S : SigScheme) (H : HashFn) (sk : S.Sk) (enc pk sig : Bytes) (hpk : pk.length = 32)
    (hbad : S.valid pk (H enc) sig = false) :
    let good := leafCert H enc (S.sign sk (H enc))
    let bad := leafCert H enc sig
    (verifyCall S H [] pk (some bad) enc).1 = .error badSignature ∧
    (verifyCall S H [] (S.pub sk) (some good) enc).1 = .ok () ∧
    (verifyCall S H (verifyCall S H [] (S.pub sk) (some good) enc).2 pk (some bad) enc).1 = .ok () := by
  intro good bad
  have hg : sigResult S (S.pub sk) good = .ok () := sigResult_pub S sk good (by rw [leafCert_root]; rfl)
  have hb : sigResult S pk bad = .error badSignature := by
    simp only [sigResult, owVerify, hpk, bad, leafCert_root]
    simp only [leafCert, hbad, ne_eq, not_true, if_false]
  refine ⟨?_, ?_, ?_⟩
  · simp only [verifyCall, bad, leafCert_auth, List.not_mem_nil, if_false]
    rw [hb]
  · simp only [verifyCall, good, leafCert_auth, List.not_mem_nil, if_false]
    rw [hg]
  · simp only [verifyCall, good, bad, leafCert_auth, List.not_mem_nil, if_false]
    rw [hg]
    simp only [leafCert_root, List.mem_singleton, if_true]

/-- The hypotheses are met by a concrete scheme. -/
example : ∃ (pk sig : Bytes), pk.length = 32 ∧ toySig.valid pk (toyHash [1]) sig = false :=
  ⟨List.replicate 32 7, [], by simp, by decide⟩

/-- What holds of C46, in every execution with any number of concurrent calls, workers and cleanups: an accepted certificate has a
correct path from the object to its root, and some call made so far, for the same root, named a key whose signature on this root its
certificate contained. -/
theorem C46_some_call_was_valid_partial (S : SigScheme) (H : HashFn) (s : VState) (hs : VReach S H s) (i : Nat) (c : VCall)
    (hd : s.calls[i]? = some (c, .done (.ok ()))) :
    ∃ cert, c.cert = some cert ∧ authPath H cert c.enc = .ok () ∧
      ∃ c' ∈ s.calls.map Prod.fst, ∃ cert', c'.cert = some cert' ∧ fitDigest cert'.root = fitDigest cert.root ∧ ValidSig S c'.pk cert' := by
  obtain ⟨cert, h1, h2, c', h3, cert', h4, h5, -, h6⟩ := hs.inv.call i c _ hd
  exact ⟨cert, h1, h2, c', h3, cert', h4, h5, (sigResult_ok S c'.pk cert').1 h6⟩

/-- So if all calls for one root name the same key and carry the same signature, an accepted one carries a valid signature of its key. -/
theorem C46_same_key_partial (S : SigScheme) (H : HashFn) (s : VState) (hs : VReach S H s) (i : Nat) (c : VCall) (cert : MerkleCertificate)
    (hcert : c.cert = some cert) (hd : s.calls[i]? = some (c, .done (.ok ())))
    (hsame : ∀ c' ∈ s.calls.map Prod.fst, ∀ cert', c'.cert = some cert' → fitDigest cert'.root = fitDigest cert.root →
      c'.pk = c.pk ∧ cert'.signature = cert.signature) : ValidSig S c.pk cert ∧ authPath H cert c.enc = .ok () := by
  obtain ⟨cert0, h1, h2, c', h3, cert', h4, h5, h6⟩ := C46_some_call_was_valid_partial S H s hs i c hd
  rw [hcert] at h1; injection h1 with h1; subst h1
  obtain ⟨e1, e2⟩ := hsame c' h3 cert' h4 h5
  refine ⟨⟨by rw [← e1]; exact h6.1, ?_⟩, h2⟩
  rw [← e1, ← e2, ← h5]; exact h6.2

/-- The cache after a list of calls made one after the other. -/
def cacheAfter (S : SigScheme) (H : HashFn) (history : List VCall) : Cache :=
  history.foldl (fun cache h => (verifyCall S H cache h.pk h.cert h.enc).2) []

theorem cacheAfter_valid (S : SigScheme) (H : HashFn) (history : List VCall) :
    ∀ d ∈ cacheAfter S H history, ∃ c' ∈ history, ∃ cert', c'.cert = some cert' ∧ fitDigest cert'.root = d ∧ ValidSig S c'.pk cert' := by
  induction history using List.reverseRecOn with
  | nil => simp [cacheAfter]
  | append_singleton hist c ih =>
    intro d hd
    have hold : d ∈ cacheAfter S H hist →
        ∃ c' ∈ hist ++ [c], ∃ cert', c'.cert = some cert' ∧ fitDigest cert'.root = d ∧ ValidSig S c'.pk cert' := by
      intro h
      obtain ⟨c', h1, h2⟩ := ih d h
      exact ⟨c', List.mem_append_left _ h1, h2⟩
    have he : cacheAfter S H (hist ++ [c]) = (verifyCall S H (cacheAfter S H hist) c.pk c.cert c.enc).2 := by
      simp [cacheAfter, List.foldl_append]
    rw [he] at hd
    unfold verifyCall at hd
    split at hd
    · exact hold hd
    · next cert hc =>
      split at hd
      · exact hold hd
      · split at hd
        · exact hold hd
        · split at hd
          · next hsig =>
            rcases List.mem_cons.1 hd with rfl | hd
            · exact ⟨c, by simp, cert, hc, rfl, (sigResult_ok S c.pk cert).1 hsig⟩
            · exact hold hd
          · exact hold hd

/-- What holds of C46, one call after the other: an accepted object carries a certificate whose path leads from the object to the root,
and this call or an earlier one for the same root carried a valid signature of the key it named. -/
theorem C46_sequential_partial (S : SigScheme) (H : HashFn) (history : List VCall) (c : VCall)
    (hok : (verifyCall S H (cacheAfter S H history) c.pk c.cert c.enc).1 = .ok ()) :
    ∃ cert, c.cert = some cert ∧ authPath H cert c.enc = .ok () ∧
      ∃ c' ∈ history ++ [c], ∃ cert', c'.cert = some cert' ∧ fitDigest cert'.root = fitDigest cert.root ∧ ValidSig S c'.pk cert' := by
  unfold verifyCall at hok
  split at hok
  · cases hok
  · next cert hc =>
    refine ⟨cert, hc, ?_⟩
    split at hok
    · cases hok
    · next hp =>
      refine ⟨hp, ?_⟩
      split at hok
      · next hin =>
        obtain ⟨c', h1, h2⟩ := cacheAfter_valid S H history _ hin
        exact ⟨c', List.mem_append_left _ h1, h2⟩
      · split at hok
        · next hsig => exact ⟨c, by simp, cert, hc, rfl, (sigResult_ok S c.pk cert).1 hsig⟩
        · cases hok

/-- Some call is accepted. -/
example (sk : toySig.Sk) : (verifyCall toySig toyHash (cacheAfter toySig toyHash []) (toySig.pub sk)
    (some (leafCert toyHash [1] (toySig.sign sk (toyHash [1])))) [1]).1 = .ok () :=
  (C46_cached_root_refuted toySig toyHash sk [1] (List.replicate 32 7) [] (by simp) (by decide)).2.1

/-- C47, one call after the other: whatever was verified before, a certificate with a valid signature and a correct path is accepted. -/
theorem C47_sequential_partial (S : SigScheme) (H : HashFn) (history : List VCall) (c : VCall) (cert : MerkleCertificate) (hc : c.cert = some cert)
    (hpath : authPath H cert c.enc = .ok ()) (hsig : ValidSig S c.pk cert) :
    (verifyCall S H (history.foldl (fun cache h => (verifyCall S H cache h.pk h.cert h.enc).2) []) c.pk c.cert c.enc).1 = .ok () := by
  have := (sigResult_ok S c.pk cert).2 hsig
  simp only [verifyCall, hc, hpath, this]
  split <;> rfl

/-- The sequential description used here and below is the concurrent one, restricted: from a state without calls in progress, a call
that runs alone returns what `verifyCall` says. -/
theorem C47_sequential_is_concurrent (S : SigScheme) (H : HashFn) (history : List VCall)
    (hp : ∀ (pre post : List VCall) (c : VCall), history = pre ++ c :: post →
      (verifyCall S H (pre.foldl (fun cache h => (verifyCall S H cache h.pk h.cert h.enc).2) []) c.pk c.cert c.enc).1 ≠ .error .panic) :
    ∃ s, VReach S H s ∧ s.calls.map Prod.fst = history ∧ ∀ (pre post : List VCall) (c : VCall), history = pre ++ c :: post →
      s.calls[pre.length]? = some (c, .done (verifyCall S H (pre.foldl (fun cache h => (verifyCall S H cache h.pk h.cert h.enc).2) []) c.pk c.cert c.enc).1) := by
  suffices h : ∃ s, VReach S H s ∧ Quiet s (history.foldl (fun cache h => (verifyCall S H cache h.pk h.cert h.enc).2) []) ∧ s.calls.map Prod.fst = history ∧
      ∀ (pre post : List VCall) (c : VCall), history = pre ++ c :: post →
      s.calls[pre.length]? = some (c, .done (verifyCall S H (pre.foldl (fun cache h => (verifyCall S H cache h.pk h.cert h.enc).2) []) c.pk c.cert c.enc).1) by
    obtain ⟨s, a, -, b, c⟩ := h; exact ⟨s, a, b, c⟩
  induction history using List.reverseRecOn with
  | nil => exact ⟨.init, .init, ⟨rfl, by simp [VState.init], by simp [VState.init]⟩, rfl, by simp⟩
  | append_singleton l x ih =>
    obtain ⟨s, h1, h2, h3, h4⟩ := ih (fun pre post c h => hp pre (post ++ [x]) c (by rw [h]; simp))
    obtain ⟨s', g1, g2, g3⟩ := sequential_run S H s _ h2 x (hp l [] x rfl)
    have hreach : VReach S H s' := by
      clear g2 g3
      induction g1 with
      | refl => exact h1
      | tail _ st ih => exact .step _ _ ih st
    refine ⟨s', hreach, ?_, ?_, ?_⟩
    · rw [List.foldl_append]; exact g2
    · rw [g3, List.map_append, h3]; rfl
    · intro pre post c h
      have hll : s.calls.length = l.length := by rw [← h3]; simp
      rcases List.eq_nil_or_concat post with rfl | ⟨post', y, rfl⟩
      · have := List.append_inj' h rfl
        obtain ⟨e1, e2⟩ := this
        have e3 : x = c := by simpa using e2
        subst e3
        rw [← e1, g3, ← hll, append_get]
      · have h' : l = pre ++ c :: post' := by
          have : l ++ [x] = (pre ++ c :: post') ++ [y] := by rw [h]; simp
          exact (List.append_inj' this rfl).1
        have hlt : pre.length < s.calls.length := by rw [hll, h']; simp
        rw [g3, List.getElem?_append_left hlt]
        exact h4 pre post' c h'

/-- C47 fails for concurrent calls: while a certificate with a wrong signature is being verified, a call with a valid certificate for
the same object joins it and is refused too. -/
theorem C47_concurrent_refuted (S : SigScheme) (H : HashFn) (sk : S.Sk) (enc badSig : Bytes) (hbad : S.valid (S.pub sk) (H enc) badSig = false) :
    ∃ s c cert, VReach S H s ∧ c.cert = some cert ∧ authPath H cert c.enc = .ok () ∧ ValidSig S c.pk cert ∧
      s.calls[1]? = some (c, .done (.error badSignature)) := by
  let ca := leafCert H enc badSig
  let cb := leafCert H enc (S.sign sk (H enc))
  let a : VCall := ⟨S.pub sk, some ca, enc⟩
  let b : VCall := ⟨S.pub sk, some cb, enc⟩
  have hne : badSig ≠ S.sign sk (H enc) := by rintro rfl; rw [S.correct] at hbad; simp at hbad
  have hra : sigResult S (S.pub sk) ca = .error badSignature := by
    simp only [sigResult, owVerify, S.pub_len, ca, leafCert_root]
    simp only [leafCert, hbad, ne_eq, not_true, if_false]
  have hroot : fitDigest cb.root = fitDigest ca.root := by rw [leafCert_root, leafCert_root]
  have r1 := VReach.step _ _ (VReach.init (S := S) (H := H)) (.call _ a rfl)
  have r2 := VReach.step _ _ r1 (.call _ b rfl)
  have r3 := VReach.step _ _ r2 (.work _ _ (.auth _ 0 a ca rfl rfl rfl (leafCert_auth H enc badSig)))
  have r4 := VReach.step _ _ r3 (.work _ _ (.auth _ 1 b cb rfl rfl rfl (leafCert_auth H enc _)))
  have r5 := VReach.step _ _ r4 (.work _ _ (.store _ 0 a ca rfl rfl rfl rfl))
  have r6 := VReach.step _ _ r5 (.work _ _ (.load _ 1 b cb 0 rfl rfl rfl (by
    rw [hroot]; exact GoMap.lookup_insert_self _ _ _)))
  have r7 := VReach.step _ _ r6 (.work _ _ (.take _ 0 a 0 ⟨S.pub sk, ca, false, none⟩ rfl rfl rfl rfl))
  have r8 := VReach.step _ _ r7 (.work _ _ (.join _ 1 b 0 ⟨S.pub sk, ca, true, none⟩ rfl rfl rfl rfl))
  have r9 := VReach.step _ _ r8 (.work _ _ (.work _ 0 ⟨S.pub sk, ca, true, none⟩ rfl rfl rfl rfl (by simp only; rw [hra]; simp [badSignature])))
  have r10 := VReach.step _ _ r9 (.work _ _ (.reject _ 1 b cb 0 false ⟨S.pub sk, ca, true, some (sigResult S (S.pub sk) ca)⟩ badSignature rfl rfl rfl rfl
    (by simp only; rw [hra]) (Or.inr hne)))
  refine ⟨_, b, cb, r10, rfl, leafCert_auth H enc _, ?_, rfl⟩
  exact (sigResult_ok S _ _).1 (sigResult_pub S sk cb (by rw [leafCert_root]; rfl))

example : ∃ (sk : toySig.Sk) (badSig : Bytes), toySig.valid (toySig.pub sk) (toyHash [1]) badSig = false :=
  ⟨⟨List.replicate 32 7, by simp⟩, [], by decide⟩

/-- What holds of C47 in every execution: while every certificate presented for a root (with a correct path) is valid for the key it is
presented with, every call for this root with a correct path that returns, returns success. -/
theorem C47_all_valid_partial (S : SigScheme) (H : HashFn) (s : VState) (hs : VReach S H s) (i : Nat) (c : VCall) (cert : MerkleCertificate)
    (hcert : c.cert = some cert) (hpath : authPath H cert c.enc = .ok ())
    (hall : ∀ c' ∈ s.calls.map Prod.fst, ∀ cert', c'.cert = some cert' → fitDigest cert'.root = fitDigest cert.root →
      authPath H cert' c'.enc = .ok () → ValidSig S c'.pk cert') (r : Go Unit) (hd : s.calls[i]? = some (c, .done r)) : r = .ok () := by
  have inv := hs.inv.call i c _ hd
  match r, inv with
  | .ok (), _ => rfl
  | .error e, inv =>
    rcases inv with ⟨h, -⟩ | ⟨cert0, h1, h2 | ⟨-, c', h3, cert', h4, h5, h6, h7⟩⟩
    · rw [hcert] at h; simp at h
    · rw [hcert] at h1; injection h1 with h1; subst h1
      rw [hpath] at h2; simp at h2
    · rw [hcert] at h1; injection h1 with h1; subst h1
      have := (sigResult_ok S c'.pk cert').2 (hall c' h3 cert' h4 h5 h6)
      rw [h7] at this; simp at this

/-- C79. Verification always returns. In every infinite execution without further calls, from some point on nothing happens but
cleanup ticks ... -/
theorem C79_finitely_many_steps (S : SigScheme) (H : HashFn) (f : ℕ → VState) (h0 : VReach S H (f 0))
    (hstep : ∀ n, VWork S H (f n) (f (n + 1)) ∨ ∃ d, f (n + 1) = { f n with map := (f n).map.erase d }) :
    ∃ N, ∀ n, N ≤ n → ¬ VWork S H (f n) (f (n + 1)) := by
  have hinv : ∀ n, VInv S H (f n) := by
    intro n
    induction n with
    | zero => exact h0.inv
    | succ n ih =>
      rcases hstep n with h | ⟨d, h⟩
      · exact ih.work h
      · by_cases hc : (f n).crashed = false
        · have := ih.step (.clean (f n) d hc)
          rw [h]; exact this
        · rw [h]
          exact ⟨ih.task, fun d' t h => ih.map d' t (lookup_erase_some h), fun j c pc hj => (ih.call j c pc hj).ext
            ⟨fun _ h => h, fun t task ht => ⟨task, ht, rfl, rfl, id⟩⟩⟩
  obtain ⟨N, hN⟩ := eventually_const (fun n => mu (f n)) (fun n => by
    rcases hstep n with h | ⟨d, h⟩
    · exact le_of_lt (h.dec (hinv n))
    · simp only [h]; exact clean_le _ _)
  exact ⟨N, fun n hn hw => hN n hn (hw.dec (hinv n))⟩

/-- ... and while some call has not returned (and the process has not crashed) some call or worker can make a step. -/
theorem C79_never_stuck (S : SigScheme) (H : HashFn) (s : VState) (hs : VReach S H s) (hc : s.crashed = false)
    (hrun : ∃ x ∈ s.calls, ∀ r, x.2 ≠ .done r) : ∃ s', VWork S H s s' := by
  obtain ⟨⟨c, pc⟩, hx, hd⟩ := hrun
  obtain ⟨i, hi⟩ := List.getElem?_of_mem hx
  exact progress hs.inv hc i c pc hi hd

/-- C79. So, from every reachable state, the calls and workers can only make finitely many steps in a row, and when they can make no
further step all calls have returned (or the process has crashed). -/
theorem C79_all_calls_return (S : SigScheme) (H : HashFn) (s : VState) (hs : VReach S H s) (hend : ∀ s', ¬ VWork S H s s') :
    s.crashed = true ∨ ∀ x ∈ s.calls, ∃ r, x.2 = .done r := by
  by_cases hc : s.crashed = true
  · exact Or.inl hc
  · right
    intro x hx
    by_contra hcon
    obtain ⟨s', h⟩ := C79_never_stuck S H s hs (by simpa using hc) ⟨x, hx, fun r h => hcon ⟨r, h⟩⟩
    exact hend s' h

/-- C73 fails: a parcel whose sender id is not 32 bytes long, and whose Merkle path is right (no key is needed for that), crashes the
process of the server that validates it. -/
theorem C73_short_sender_id_refuted (S : SigScheme) (H : HashFn) (pk enc sig : Bytes) (hpk : pk.length ≠ 32) :
    (∃ s, VReach S H s ∧ s.crashed = true ∧ s.calls.map Prod.fst = [⟨pk, some (leafCert H enc sig), enc⟩]) ∧
    (verifyCall S H [] pk (some (leafCert H enc sig)) enc).1 = .error .panic := by
  let ca := leafCert H enc sig
  let a : VCall := ⟨pk, some ca, enc⟩
  have hra : sigResult S pk ca = .error .panic := by simp [sigResult, owVerify, hpk]
  constructor
  · have r1 := VReach.step _ _ (VReach.init (S := S) (H := H)) (.call _ a rfl)
    have r3 := VReach.step _ _ r1 (.work _ _ (.auth _ 0 a ca rfl rfl rfl (leafCert_auth H enc sig)))
    have r5 := VReach.step _ _ r3 (.work _ _ (.store _ 0 a ca rfl rfl rfl rfl))
    have r7 := VReach.step _ _ r5 (.work _ _ (.take _ 0 a 0 ⟨pk, ca, false, none⟩ rfl rfl rfl rfl))
    have r8 := VReach.step _ _ r7 (.work _ _ (.workCrash _ 0 ⟨pk, ca, true, none⟩ rfl rfl rfl rfl hra))
    exact ⟨_, r8, rfl, rfl⟩
  · simp only [verifyCall, leafCert_auth, List.not_mem_nil, if_false]
    rw [show sigResult S pk (leafCert H enc sig) = .error .panic from hra]

/-- What holds of C73: keys of the right length never crash the verifier, whatever the certificates and objects. -/
theorem C73_right_length_partial (S : SigScheme) (H : HashFn) (s : VState) (hs : VReach S H s) (hlen : ∀ c ∈ s.calls.map Prod.fst, c.pk.length = 32) :
    s.crashed = false := by
  induction hs with
  | init => rfl
  | step s s' hs st ih =>
    cases st with
    | call c hc => exact hc
    | clean d hc => exact hc
    | work _ hw =>
      cases hw with
      | workCrash t task hc ht htk hr hp =>
        obtain ⟨-, c, h1, h2, -⟩ := hs.inv.task t task ht
        have := hlen c h1
        rw [h2] at this
        unfold sigResult owVerify at hp
        rw [if_neg (by simp [this])] at hp
        cases hv : S.valid task.pk (fitDigest task.cert.root) task.cert.signature <;> simp [hv, badSignature] at hp
      | noCert _ _ hc => exact hc
      | auth _ _ _ hc => exact hc
      | authFail _ _ _ _ hc => exact hc
      | load _ _ _ _ hc => exact hc
      | store _ _ _ hc => exact hc
      | take _ _ _ _ hc => exact hc
      | join _ _ _ _ hc => exact hc
      | work _ _ hc => exact hc
      | accept _ _ _ _ _ hc => exact hc
      | retry _ _ _ _ _ _ hc => exact hc
      | reject _ _ _ _ _ _ _ hc => exact hc

/-- Non-vacuity of C47_all_valid, C73_right_length and C79: two concurrent calls with the same valid certificate share one verification, and both return. -/
example (S : SigScheme) (H : HashFn) (sk : S.Sk) (enc : Bytes) : ∃ s c cert, VReach S H s ∧ c.cert = some cert ∧ authPath H cert c.enc = .ok () ∧
    (∀ c' ∈ s.calls.map Prod.fst, c'.pk.length = 32 ∧ ∀ cert', c'.cert = some cert' → ValidSig S c'.pk cert') ∧ s.tasks.length = 1 ∧
    s.calls = [(c, .done (.ok ())), (c, .done (.ok ()))] := by
  let ca := leafCert H enc (S.sign sk (H enc))
  let a : VCall := ⟨S.pub sk, some ca, enc⟩
  have hra : sigResult S (S.pub sk) ca = .ok () := sigResult_pub S sk ca (by rw [leafCert_root]; rfl)
  have r1 := VReach.step _ _ (VReach.init (S := S) (H := H)) (.call _ a rfl)
  have r2 := VReach.step _ _ r1 (.call _ a rfl)
  have r3 := VReach.step _ _ r2 (.work _ _ (.auth _ 0 a ca rfl rfl rfl (leafCert_auth H enc _)))
  have r4 := VReach.step _ _ r3 (.work _ _ (.auth _ 1 a ca rfl rfl rfl (leafCert_auth H enc _)))
  have r5 := VReach.step _ _ r4 (.work _ _ (.store _ 0 a ca rfl rfl rfl rfl))
  have r6 := VReach.step _ _ r5 (.work _ _ (.load _ 1 a ca 0 rfl rfl rfl (GoMap.lookup_insert_self _ _ _)))
  have r7 := VReach.step _ _ r6 (.work _ _ (.take _ 0 a 0 ⟨S.pub sk, ca, false, none⟩ rfl rfl rfl rfl))
  have r8 := VReach.step _ _ r7 (.work _ _ (.join _ 1 a 0 ⟨S.pub sk, ca, true, none⟩ rfl rfl rfl rfl))
  have r9 := VReach.step _ _ r8 (.work _ _ (.work _ 0 ⟨S.pub sk, ca, true, none⟩ rfl rfl rfl rfl (by simp only; rw [hra]; simp)))
  have r10 := VReach.step _ _ r9 (.work _ _ (.accept _ 1 a 0 false ⟨S.pub sk, ca, true, some (sigResult S (S.pub sk) ca)⟩ rfl rfl rfl (by simp only; rw [hra])))
  have r11 := VReach.step _ _ r10 (.work _ _ (.accept _ 0 a 0 true ⟨S.pub sk, ca, true, some (sigResult S (S.pub sk) ca)⟩ rfl rfl rfl (by simp only; rw [hra])))
  refine ⟨_, a, ca, r11, rfl, leafCert_auth H enc _, ?_, rfl, rfl⟩
  intro c' hc'
  have : c' = a := by
    have : c' ∈ [a, a] := hc'
    simpa using this
  subst this
  refine ⟨S.pub_len sk, fun cert' h => ?_⟩
  cases h
  exact (sigResult_ok S _ _).1 hra

end Resmix.Rrpc
