import Verif.Proofs.VerifierRaceB
import Verif.Props.VerifierPool
import Verif.Proofs.VerifierSeq
set_option autoImplicit false
/-
C128: calls of Verify by any number of goroutines, on objects of their own, have no data races; and when a call has returned, its object (but not its certificate) is the
caller's again.
-/
namespace Resmix.Rrpc.VerifierRace
open Resmix.Race Resmix.Merkle Resmix.Rrpc

/-- C128: in every execution of a verifier in which no two goroutines verify the same object, or objects with the same certificate, there is no data race: neither among
the users and the workers, nor with what a user does to its object before a call and after it. -/
theorem C128_race_free {S : SigScheme} {H : HashFn} {n : Nat} {s : RState} (h : RReach S H n s) (hsep : Separate s) : RaceFree s.trace := by
  obtain ⟨γ, -, h2⟩ := h.own hsep
  exact h2.free

/-- The annotated steps are those of Model/VerifierPool. -/
theorem lift {S : SigScheme} {H : HashFn} {n : Nat} {s : RState} {p : PState} (hc : Ctl s) (h : PWork S H n s.inner p) :
    ∃ s', RStep S H n s s' ∧ s'.inner = p ∧ s'.who = s.who := by
  have hw : ∀ (i : Nat) (x : VCall × PPc), s.inner.calls[i]? = some x → ∃ m, s.who[i]? = some m := fun i x hx =>
    ⟨s.who[i]'(by rw [hc.len]; exact (List.getElem?_eq_some_iff.1 hx).1), List.getElem?_eq_getElem _⟩
  generalize hp : s.inner = q at h
  subst hp
  cases h with
  | noCert i c h1 h2 h3 => obtain ⟨m, hm⟩ := hw i _ h2; exact ⟨_, .noCert s i c m h1 h2 h3 hm, rfl, rfl⟩
  | submit i c cert h1 h2 h3 h4 => obtain ⟨m, hm⟩ := hw i _ h2; exact ⟨_, .submit s i c cert m h1 h2 h3 h4 hm, rfl, rfl⟩
  | pick x q h1 h2 h3 =>
    cases x with
    | path i => exact ⟨_, .pickPath s i q h1 h2 h3, rfl, rfl⟩
    | sig t => exact ⟨_, .pickSig s t q h1 h2 h3, rfl, rfl⟩
  | answer l₁ l₂ i c cert h1 h2 h3 h4 => obtain ⟨m, hm⟩ := hw i _ h3; exact ⟨_, .answer s l₁ l₂ i c cert m h1 h2 h3 h4 hm, rfl, rfl⟩
  | answerTwice i h1 h2 h3 => exact ⟨_, .answerTwice s i h1 h2 h3, rfl, rfl⟩
  | pathOk i c h1 h2 => obtain ⟨m, hm⟩ := hw i _ h2; exact ⟨_, .pathOk s i c m h1 h2 hm, rfl, rfl⟩
  | pathBad i c e h1 h2 => obtain ⟨m, hm⟩ := hw i _ h2; exact ⟨_, .pathBad s i c e m h1 h2 hm, rfl, rfl⟩
  | load i c cert t h1 h2 h3 h4 => obtain ⟨m, hm⟩ := hw i _ h2; exact ⟨_, .load s i c cert t m h1 h2 h3 h4 hm, rfl, rfl⟩
  | store i c cert h1 h2 h3 h4 => obtain ⟨m, hm⟩ := hw i _ h2; exact ⟨_, .store s i c cert m h1 h2 h3 h4 hm, rfl, rfl⟩
  | take i c t task h1 h2 h3 h4 => obtain ⟨m, hm⟩ := hw i _ h2; exact ⟨_, .take s i c t task m h1 h2 h3 h4 hm, rfl, rfl⟩
  | join i c t task h1 h2 h3 h4 => obtain ⟨m, hm⟩ := hw i _ h2; exact ⟨_, .join s i c t task m h1 h2 h3 h4 hm, rfl, rfl⟩
  | submitSig i c t h1 h2 h3 => obtain ⟨m, hm⟩ := hw i _ h2; exact ⟨_, .submitSig s i c t m h1 h2 h3 hm, rfl, rfl⟩
  | work l₁ l₂ t task h1 h2 h3 h4 h5 => obtain ⟨k, hk⟩ := hc.certOf h3; exact ⟨_, .work s l₁ l₂ t task k h1 h2 h3 h4 h5 hk, rfl, rfl⟩
  | workCrash t task h1 h2 h3 h4 => exact ⟨_, .workCrash s t task h1 h2 h3 h4, rfl, rfl⟩
  | workTwice t task r h1 h2 h3 h4 => exact ⟨_, .workTwice s t task r h1 h2 h3 h4, rfl, rfl⟩
  | accept i c t mine task h1 h2 h3 h4 => obtain ⟨m, hm⟩ := hw i _ h2; exact ⟨_, .accept s i c t mine task m h1 h2 h3 h4 hm, rfl, rfl⟩
  | retry i c cert t task e h1 h2 h3 h4 h5 h6 =>
    obtain ⟨m, hm⟩ := hw i _ h2; obtain ⟨k, hk⟩ := hc.certOf h4
    exact ⟨_, .retry s i c cert t task e m k h1 h2 h3 h4 h5 h6 hm hk, rfl, rfl⟩
  | reject i c cert t mine task e h1 h2 h3 h4 h5 h6 =>
    obtain ⟨m, hm⟩ := hw i _ h2; obtain ⟨k, hk⟩ := hc.certOf h4
    exact ⟨_, .reject s i c cert t mine task e m k h1 h2 h3 h4 h5 h6 hm hk, rfl, rfl⟩
  | exit h1 h2 h3 => exact ⟨_, .exit s h1 h2 h3, rfl, rfl⟩

/-- C128: this is about every execution of the verifier: each of them, with every call on a goroutine, an object and a certificate of its own, is one of those of C128_race_free. -/
theorem C128_all_executions {S : SigScheme} {H : HashFn} {n : Nat} {p : PState} (h : PReach S H n p) : ∃ s, RReach S H n s ∧ Separate s ∧ s.inner = p := by
  suffices h : ∃ s, RReach S H n s ∧ s.inner = p ∧ ∀ (i : Nat) (m : Meta), s.who[i]? = some m → m.user = i ∧ m.obj = i ∧ m.cert = i by
    obtain ⟨s, h1, h2, h3⟩ := h
    refine ⟨s, h1, ?_, h2⟩
    intro i j m m' hi hj hx
    have := h3 i m hi; have := h3 j m' hj
    omega
  induction h with
  | init => exact ⟨_, .init, rfl, by simp [RState.init]⟩
  | step q p _ hs ih =>
    obtain ⟨s, h1, h2, h3⟩ := ih
    subst h2
    cases hs with
    | call c hcr =>
      refine ⟨_, .step _ _ h1 (.call s c s.who.length s.who.length s.who.length hcr ?_), rfl, ?_⟩
      · intro j m c' pc hj _ hu
        have := (List.getElem?_eq_some_iff.1 hj).1
        have := h3 j m hj
        omega
      · intro i m hm
        rcases getElem?_append_one hm with hm | ⟨rfl, rfl⟩
        · exact h3 i m hm
        · exact ⟨rfl, rfl, rfl⟩
    | work _ hw =>
      obtain ⟨s', e1, e2, e3⟩ := lift h1.ctl hw
      exact ⟨s', .step _ _ h1 e1, e2, by rw [e3]; exact h3⟩
    | clean d hcr => exact ⟨_, .step _ _ h1 (.clean s d hcr), rfl, h3⟩
    | stop hcr => exact ⟨_, .step _ _ h1 (.stop s hcr), rfl, h3⟩

/-- Two goroutines verify the same object at the same time: a race. So the condition of C128_race_free is needed. -/
theorem shared_object_races (S : SigScheme) (H : HashFn) (c : VCall) : ∃ s, RReach S H 1 s ∧ (∃ m m', s.who = [m, m'] ∧ m.obj = m'.obj ∧ m.user ≠ m'.user) ∧ ¬ RaceFree s.trace := by
  have r1 := RReach.step _ _ (RReach.init (S := S) (H := H) (n := 1)) (.call _ c 0 0 0 rfl (by intro j m c pc h; simp [RState.init] at h))
  have r2 := RReach.step _ _ r1 (.call _ c 1 0 1 rfl (by
    intro j m c pc h1 h2 h3
    rcases j with _ | j <;> simp [RState.init] at h1
    subst h1; cases h3))
  refine ⟨_, r2, ⟨_, _, rfl, rfl, by simp⟩, fun hrf => ?_⟩
  have hb := hrf 1 3 _ _ (by omega) rfl rfl ⟨.obj 0, .inl ⟨rfl, .inr rfl⟩⟩
  have := hb_stuck_of hb rfl rfl (by
    intro k e hk he hg o
    rcases k with _ | _ | _ | _ | k <;> simp [RState.init, made] at he <;> subst he <;> simp)
  simp at this

/-- A run: two goroutines verify copies of a message with the same root, with different bad signatures; the second finds the task of the first. Both have returned. -/
theorem two_calls (S : SigScheme) (H : HashFn) (pk enc : Bytes) (ca cb : MerkleCertificate) (e : Fail) (hra : sigResult S pk ca = .error e) (he : e ≠ .panic)
    (haa : authPath H ca enc = .ok ()) (hab : authPath H cb enc = .ok ()) (hroot : cb.root = ca.root) (hsig : ca.signature ≠ cb.signature) :
    ∃ s, RReach S H 2 s ∧ Separate s ∧ s.inner.calls.map Prod.snd = [.done (.error e), .done (.error e)] ∧
    s.trace[41]? = some ⟨.user 1, .read (.cert 0)⟩ ∧ s.trace.drop 42 = [⟨.user 1, .read (.cert 1)⟩, ⟨.user 1, .write (.obj 1)⟩] := by
  obtain ⟨a, ha1, ha2, ha3⟩ : ∃ a : VCall, a.pk = pk ∧ a.cert = some ca ∧ a.enc = enc := ⟨⟨pk, some ca, enc⟩, rfl, rfl, rfl⟩
  obtain ⟨b, hb1, hb2, hb3⟩ : ∃ b : VCall, b.pk = pk ∧ b.cert = some cb ∧ b.enc = enc := ⟨⟨pk, some cb, enc⟩, rfl, rfl, rfl⟩
  have r1 : RReach S H 2 ⟨⟨[], [], [(a, .start)], [], 2, [], false, false⟩, [⟨0, 0, 0⟩], [], fun _ => 0,
      [⟨.user 0, .write (.cert 0)⟩, ⟨.user 0, .write (.obj 0)⟩]⟩ :=
    .step _ _ RReach.init (.call _ a 0 0 0 rfl (by intro j m c pc h; simp [RState.init] at h))
  have r2 : RReach S H 2 ⟨⟨[], [], [(a, .queued)], [.path 0], 2, [], false, false⟩, [⟨0, 0, 0⟩], [], fun j => if j = 0 then 1 else 0,
      [⟨.user 0, .write (.cert 0)⟩, ⟨.user 0, .write (.obj 0)⟩, ⟨.user 0, .write (.obj 0)⟩, ⟨.user 0, .read (.cert 0)⟩, ⟨.user 0, .release (.pathMsg 0 1)⟩]⟩ :=
    .step _ _ r1 (.submit _ 0 a ca ⟨0, 0, 0⟩ rfl rfl ha2 (show 0 < 16 by decide) rfl)
  have r3 : RReach S H 2 ⟨⟨[], [], [(a, .queued)], [], 1, [.path 0], false, false⟩, [⟨0, 0, 0⟩], [], fun j => if j = 0 then 1 else 0,
      [⟨.user 0, .write (.cert 0)⟩, ⟨.user 0, .write (.obj 0)⟩, ⟨.user 0, .write (.obj 0)⟩, ⟨.user 0, .read (.cert 0)⟩, ⟨.user 0, .release (.pathMsg 0 1)⟩, ⟨.pathWorker 0 1, .acquire (.pathMsg 0 1)⟩]⟩ :=
    .step _ _ r2 (.pickPath _ 0 [] rfl (show 0 < 2 by decide) rfl)
  have r4 : RReach S H 2 ⟨⟨[], [], [(a, .answered (.ok ()))], [], 2, [], false, false⟩, [⟨0, 0, 0⟩], [], fun j => if j = 0 then 1 else 0,
      [⟨.user 0, .write (.cert 0)⟩, ⟨.user 0, .write (.obj 0)⟩, ⟨.user 0, .write (.obj 0)⟩, ⟨.user 0, .read (.cert 0)⟩, ⟨.user 0, .release (.pathMsg 0 1)⟩, ⟨.pathWorker 0 1, .acquire (.pathMsg 0 1)⟩, ⟨.pathWorker 0 1, .read (.cert 0)⟩, ⟨.pathWorker 0 1, .read (.obj 0)⟩, ⟨.pathWorker 0 1, .release (.resp 0 1)⟩]⟩ :=
    by have h := RReach.step _ _ r3 (.answer _ [] [] 0 a ca ⟨0, 0, 0⟩ rfl rfl rfl ha2 rfl); rw [ha3, haa] at h; exact h
  have r5 : RReach S H 2 ⟨⟨[], [], [(a, .authed)], [], 2, [], false, false⟩, [⟨0, 0, 0⟩], [], fun j => if j = 0 then 1 else 0,
      [⟨.user 0, .write (.cert 0)⟩, ⟨.user 0, .write (.obj 0)⟩, ⟨.user 0, .write (.obj 0)⟩, ⟨.user 0, .read (.cert 0)⟩, ⟨.user 0, .release (.pathMsg 0 1)⟩, ⟨.pathWorker 0 1, .acquire (.pathMsg 0 1)⟩, ⟨.pathWorker 0 1, .read (.cert 0)⟩, ⟨.pathWorker 0 1, .read (.obj 0)⟩, ⟨.pathWorker 0 1, .release (.resp 0 1)⟩, ⟨.user 0, .acquire (.resp 0 1)⟩]⟩ :=
    .step _ _ r4 (.pathOk _ 0 a ⟨0, 0, 0⟩ rfl rfl rfl)
  have r6 : RReach S H 2 ⟨⟨GoMap.insert ([] : GoMap Digest Nat) (fitDigest ca.root) 0, [⟨pk, ca, false, none⟩], [(a, .loaded 0)], [], 2, [], false, false⟩, [⟨0, 0, 0⟩], [0], fun j => if j = 0 then 1 else 0,
      [⟨.user 0, .write (.cert 0)⟩, ⟨.user 0, .write (.obj 0)⟩, ⟨.user 0, .write (.obj 0)⟩, ⟨.user 0, .read (.cert 0)⟩, ⟨.user 0, .release (.pathMsg 0 1)⟩, ⟨.pathWorker 0 1, .acquire (.pathMsg 0 1)⟩, ⟨.pathWorker 0 1, .read (.cert 0)⟩, ⟨.pathWorker 0 1, .read (.obj 0)⟩, ⟨.pathWorker 0 1, .release (.resp 0 1)⟩, ⟨.user 0, .acquire (.resp 0 1)⟩, ⟨.user 0, .write (.fields 0)⟩, ⟨.user 0, .write (.err 0)⟩, ⟨.user 0, .release (.entry 0)⟩]⟩ :=
    by have h := RReach.step _ _ r5 (.store _ 0 a ca ⟨0, 0, 0⟩ rfl rfl ha2 rfl rfl); rw [ha1] at h; exact h
  have r7 : RReach S H 2 ⟨⟨GoMap.insert ([] : GoMap Digest Nat) (fitDigest ca.root) 0, [⟨pk, ca, true, none⟩], [(a, .chosen 0)], [], 2, [], false, false⟩, [⟨0, 0, 0⟩], [0], fun j => if j = 0 then 1 else 0,
      [⟨.user 0, .write (.cert 0)⟩, ⟨.user 0, .write (.obj 0)⟩, ⟨.user 0, .write (.obj 0)⟩, ⟨.user 0, .read (.cert 0)⟩, ⟨.user 0, .release (.pathMsg 0 1)⟩, ⟨.pathWorker 0 1, .acquire (.pathMsg 0 1)⟩, ⟨.pathWorker 0 1, .read (.cert 0)⟩, ⟨.pathWorker 0 1, .read (.obj 0)⟩, ⟨.pathWorker 0 1, .release (.resp 0 1)⟩, ⟨.user 0, .acquire (.resp 0 1)⟩, ⟨.user 0, .write (.fields 0)⟩, ⟨.user 0, .write (.err 0)⟩, ⟨.user 0, .release (.entry 0)⟩, ⟨.user 0, .read (.fields 0)⟩]⟩ :=
    .step _ _ r6 (.take _ 0 a 0 ⟨pk, ca, false, none⟩ ⟨0, 0, 0⟩ rfl rfl rfl rfl rfl)
  have r8 : RReach S H 2 ⟨⟨GoMap.insert ([] : GoMap Digest Nat) (fitDigest ca.root) 0, [⟨pk, ca, true, none⟩], [(a, .waiting 0 true)], [.sig 0], 2, [], false, false⟩, [⟨0, 0, 0⟩], [0], fun j => if j = 0 then 1 else 0,
      [⟨.user 0, .write (.cert 0)⟩, ⟨.user 0, .write (.obj 0)⟩, ⟨.user 0, .write (.obj 0)⟩, ⟨.user 0, .read (.cert 0)⟩, ⟨.user 0, .release (.pathMsg 0 1)⟩, ⟨.pathWorker 0 1, .acquire (.pathMsg 0 1)⟩, ⟨.pathWorker 0 1, .read (.cert 0)⟩, ⟨.pathWorker 0 1, .read (.obj 0)⟩, ⟨.pathWorker 0 1, .release (.resp 0 1)⟩, ⟨.user 0, .acquire (.resp 0 1)⟩, ⟨.user 0, .write (.fields 0)⟩, ⟨.user 0, .write (.err 0)⟩, ⟨.user 0, .release (.entry 0)⟩, ⟨.user 0, .read (.fields 0)⟩, ⟨.user 0, .release (.sigMsg 0)⟩]⟩ :=
    .step _ _ r7 (.submitSig _ 0 a 0 ⟨0, 0, 0⟩ rfl rfl (show 0 < 16 by decide) rfl)
  have r9 : RReach S H 2 ⟨⟨GoMap.insert ([] : GoMap Digest Nat) (fitDigest ca.root) 0, [⟨pk, ca, true, none⟩], [(a, .waiting 0 true)], [], 1, [.sig 0], false, false⟩, [⟨0, 0, 0⟩], [0], fun j => if j = 0 then 1 else 0,
      [⟨.user 0, .write (.cert 0)⟩, ⟨.user 0, .write (.obj 0)⟩, ⟨.user 0, .write (.obj 0)⟩, ⟨.user 0, .read (.cert 0)⟩, ⟨.user 0, .release (.pathMsg 0 1)⟩, ⟨.pathWorker 0 1, .acquire (.pathMsg 0 1)⟩, ⟨.pathWorker 0 1, .read (.cert 0)⟩, ⟨.pathWorker 0 1, .read (.obj 0)⟩, ⟨.pathWorker 0 1, .release (.resp 0 1)⟩, ⟨.user 0, .acquire (.resp 0 1)⟩, ⟨.user 0, .write (.fields 0)⟩, ⟨.user 0, .write (.err 0)⟩, ⟨.user 0, .release (.entry 0)⟩, ⟨.user 0, .read (.fields 0)⟩, ⟨.user 0, .release (.sigMsg 0)⟩, ⟨.sigWorker 0, .acquire (.sigMsg 0)⟩]⟩ :=
    .step _ _ r8 (.pickSig _ 0 [] rfl (show 0 < 2 by decide) rfl)
  have r10 : RReach S H 2 ⟨⟨GoMap.insert ([] : GoMap Digest Nat) (fitDigest ca.root) 0, [⟨pk, ca, true, none⟩], [(a, .waiting 0 true), (b, .start)], [], 1, [.sig 0], false, false⟩, [⟨0, 0, 0⟩, ⟨1, 1, 1⟩], [0], fun j => if j = 0 then 1 else 0,
      [⟨.user 0, .write (.cert 0)⟩, ⟨.user 0, .write (.obj 0)⟩, ⟨.user 0, .write (.obj 0)⟩, ⟨.user 0, .read (.cert 0)⟩, ⟨.user 0, .release (.pathMsg 0 1)⟩, ⟨.pathWorker 0 1, .acquire (.pathMsg 0 1)⟩, ⟨.pathWorker 0 1, .read (.cert 0)⟩, ⟨.pathWorker 0 1, .read (.obj 0)⟩, ⟨.pathWorker 0 1, .release (.resp 0 1)⟩, ⟨.user 0, .acquire (.resp 0 1)⟩, ⟨.user 0, .write (.fields 0)⟩, ⟨.user 0, .write (.err 0)⟩, ⟨.user 0, .release (.entry 0)⟩, ⟨.user 0, .read (.fields 0)⟩, ⟨.user 0, .release (.sigMsg 0)⟩, ⟨.sigWorker 0, .acquire (.sigMsg 0)⟩, ⟨.user 1, .write (.cert 1)⟩, ⟨.user 1, .write (.obj 1)⟩]⟩ :=
    .step _ _ r9 (.call _ b 1 1 1 rfl (by
      intro j m c pc h1 h2 h3
      rcases j with _ | j <;> simp at h1
      subst h1; cases h3))
  have r11 : RReach S H 2 ⟨⟨GoMap.insert ([] : GoMap Digest Nat) (fitDigest ca.root) 0, [⟨pk, ca, true, none⟩], [(a, .waiting 0 true), (b, .queued)], [.path 1], 1, [.sig 0], false, false⟩, [⟨0, 0, 0⟩, ⟨1, 1, 1⟩], [0], fun j => if j = 1 then 1 else if j = 0 then 1 else 0,
      [⟨.user 0, .write (.cert 0)⟩, ⟨.user 0, .write (.obj 0)⟩, ⟨.user 0, .write (.obj 0)⟩, ⟨.user 0, .read (.cert 0)⟩, ⟨.user 0, .release (.pathMsg 0 1)⟩, ⟨.pathWorker 0 1, .acquire (.pathMsg 0 1)⟩, ⟨.pathWorker 0 1, .read (.cert 0)⟩, ⟨.pathWorker 0 1, .read (.obj 0)⟩, ⟨.pathWorker 0 1, .release (.resp 0 1)⟩, ⟨.user 0, .acquire (.resp 0 1)⟩, ⟨.user 0, .write (.fields 0)⟩, ⟨.user 0, .write (.err 0)⟩, ⟨.user 0, .release (.entry 0)⟩, ⟨.user 0, .read (.fields 0)⟩, ⟨.user 0, .release (.sigMsg 0)⟩, ⟨.sigWorker 0, .acquire (.sigMsg 0)⟩, ⟨.user 1, .write (.cert 1)⟩, ⟨.user 1, .write (.obj 1)⟩, ⟨.user 1, .write (.obj 1)⟩, ⟨.user 1, .read (.cert 1)⟩, ⟨.user 1, .release (.pathMsg 1 1)⟩]⟩ :=
    .step _ _ r10 (.submit _ 1 b cb ⟨1, 1, 1⟩ rfl rfl hb2 (show 0 < 16 by decide) rfl)
  have r12 : RReach S H 2 ⟨⟨GoMap.insert ([] : GoMap Digest Nat) (fitDigest ca.root) 0, [⟨pk, ca, true, none⟩], [(a, .waiting 0 true), (b, .queued)], [], 0, [.path 1, .sig 0], false, false⟩, [⟨0, 0, 0⟩, ⟨1, 1, 1⟩], [0], fun j => if j = 1 then 1 else if j = 0 then 1 else 0,
      [⟨.user 0, .write (.cert 0)⟩, ⟨.user 0, .write (.obj 0)⟩, ⟨.user 0, .write (.obj 0)⟩, ⟨.user 0, .read (.cert 0)⟩, ⟨.user 0, .release (.pathMsg 0 1)⟩, ⟨.pathWorker 0 1, .acquire (.pathMsg 0 1)⟩, ⟨.pathWorker 0 1, .read (.cert 0)⟩, ⟨.pathWorker 0 1, .read (.obj 0)⟩, ⟨.pathWorker 0 1, .release (.resp 0 1)⟩, ⟨.user 0, .acquire (.resp 0 1)⟩, ⟨.user 0, .write (.fields 0)⟩, ⟨.user 0, .write (.err 0)⟩, ⟨.user 0, .release (.entry 0)⟩, ⟨.user 0, .read (.fields 0)⟩, ⟨.user 0, .release (.sigMsg 0)⟩, ⟨.sigWorker 0, .acquire (.sigMsg 0)⟩, ⟨.user 1, .write (.cert 1)⟩, ⟨.user 1, .write (.obj 1)⟩, ⟨.user 1, .write (.obj 1)⟩, ⟨.user 1, .read (.cert 1)⟩, ⟨.user 1, .release (.pathMsg 1 1)⟩, ⟨.pathWorker 1 1, .acquire (.pathMsg 1 1)⟩]⟩ :=
    .step _ _ r11 (.pickPath _ 1 [] rfl (show 0 < 1 by decide) rfl)
  have r13 : RReach S H 2 ⟨⟨GoMap.insert ([] : GoMap Digest Nat) (fitDigest ca.root) 0, [⟨pk, ca, true, none⟩], [(a, .waiting 0 true), (b, .answered (.ok ()))], [], 1, [.sig 0], false, false⟩, [⟨0, 0, 0⟩, ⟨1, 1, 1⟩], [0], fun j => if j = 1 then 1 else if j = 0 then 1 else 0,
      [⟨.user 0, .write (.cert 0)⟩, ⟨.user 0, .write (.obj 0)⟩, ⟨.user 0, .write (.obj 0)⟩, ⟨.user 0, .read (.cert 0)⟩, ⟨.user 0, .release (.pathMsg 0 1)⟩, ⟨.pathWorker 0 1, .acquire (.pathMsg 0 1)⟩, ⟨.pathWorker 0 1, .read (.cert 0)⟩, ⟨.pathWorker 0 1, .read (.obj 0)⟩, ⟨.pathWorker 0 1, .release (.resp 0 1)⟩, ⟨.user 0, .acquire (.resp 0 1)⟩, ⟨.user 0, .write (.fields 0)⟩, ⟨.user 0, .write (.err 0)⟩, ⟨.user 0, .release (.entry 0)⟩, ⟨.user 0, .read (.fields 0)⟩, ⟨.user 0, .release (.sigMsg 0)⟩, ⟨.sigWorker 0, .acquire (.sigMsg 0)⟩, ⟨.user 1, .write (.cert 1)⟩, ⟨.user 1, .write (.obj 1)⟩, ⟨.user 1, .write (.obj 1)⟩, ⟨.user 1, .read (.cert 1)⟩, ⟨.user 1, .release (.pathMsg 1 1)⟩, ⟨.pathWorker 1 1, .acquire (.pathMsg 1 1)⟩, ⟨.pathWorker 1 1, .read (.cert 1)⟩, ⟨.pathWorker 1 1, .read (.obj 1)⟩, ⟨.pathWorker 1 1, .release (.resp 1 1)⟩]⟩ :=
    by have h := RReach.step _ _ r12 (.answer _ [] [.sig 0] 1 b cb ⟨1, 1, 1⟩ rfl rfl rfl hb2 rfl); rw [hb3, hab] at h; exact h
  have r14 : RReach S H 2 ⟨⟨GoMap.insert ([] : GoMap Digest Nat) (fitDigest ca.root) 0, [⟨pk, ca, true, none⟩], [(a, .waiting 0 true), (b, .authed)], [], 1, [.sig 0], false, false⟩, [⟨0, 0, 0⟩, ⟨1, 1, 1⟩], [0], fun j => if j = 1 then 1 else if j = 0 then 1 else 0,
      [⟨.user 0, .write (.cert 0)⟩, ⟨.user 0, .write (.obj 0)⟩, ⟨.user 0, .write (.obj 0)⟩, ⟨.user 0, .read (.cert 0)⟩, ⟨.user 0, .release (.pathMsg 0 1)⟩, ⟨.pathWorker 0 1, .acquire (.pathMsg 0 1)⟩, ⟨.pathWorker 0 1, .read (.cert 0)⟩, ⟨.pathWorker 0 1, .read (.obj 0)⟩, ⟨.pathWorker 0 1, .release (.resp 0 1)⟩, ⟨.user 0, .acquire (.resp 0 1)⟩, ⟨.user 0, .write (.fields 0)⟩, ⟨.user 0, .write (.err 0)⟩, ⟨.user 0, .release (.entry 0)⟩, ⟨.user 0, .read (.fields 0)⟩, ⟨.user 0, .release (.sigMsg 0)⟩, ⟨.sigWorker 0, .acquire (.sigMsg 0)⟩, ⟨.user 1, .write (.cert 1)⟩, ⟨.user 1, .write (.obj 1)⟩, ⟨.user 1, .write (.obj 1)⟩, ⟨.user 1, .read (.cert 1)⟩, ⟨.user 1, .release (.pathMsg 1 1)⟩, ⟨.pathWorker 1 1, .acquire (.pathMsg 1 1)⟩, ⟨.pathWorker 1 1, .read (.cert 1)⟩, ⟨.pathWorker 1 1, .read (.obj 1)⟩, ⟨.pathWorker 1 1, .release (.resp 1 1)⟩, ⟨.user 1, .acquire (.resp 1 1)⟩]⟩ :=
    .step _ _ r13 (.pathOk _ 1 b ⟨1, 1, 1⟩ rfl rfl rfl)
  have r15 : RReach S H 2 ⟨⟨GoMap.insert ([] : GoMap Digest Nat) (fitDigest ca.root) 0, [⟨pk, ca, true, none⟩], [(a, .waiting 0 true), (b, .loaded 0)], [], 1, [.sig 0], false, false⟩, [⟨0, 0, 0⟩, ⟨1, 1, 1⟩], [0], fun j => if j = 1 then 1 else if j = 0 then 1 else 0,
      [⟨.user 0, .write (.cert 0)⟩, ⟨.user 0, .write (.obj 0)⟩, ⟨.user 0, .write (.obj 0)⟩, ⟨.user 0, .read (.cert 0)⟩, ⟨.user 0, .release (.pathMsg 0 1)⟩, ⟨.pathWorker 0 1, .acquire (.pathMsg 0 1)⟩, ⟨.pathWorker 0 1, .read (.cert 0)⟩, ⟨.pathWorker 0 1, .read (.obj 0)⟩, ⟨.pathWorker 0 1, .release (.resp 0 1)⟩, ⟨.user 0, .acquire (.resp 0 1)⟩, ⟨.user 0, .write (.fields 0)⟩, ⟨.user 0, .write (.err 0)⟩, ⟨.user 0, .release (.entry 0)⟩, ⟨.user 0, .read (.fields 0)⟩, ⟨.user 0, .release (.sigMsg 0)⟩, ⟨.sigWorker 0, .acquire (.sigMsg 0)⟩, ⟨.user 1, .write (.cert 1)⟩, ⟨.user 1, .write (.obj 1)⟩, ⟨.user 1, .write (.obj 1)⟩, ⟨.user 1, .read (.cert 1)⟩, ⟨.user 1, .release (.pathMsg 1 1)⟩, ⟨.pathWorker 1 1, .acquire (.pathMsg 1 1)⟩, ⟨.pathWorker 1 1, .read (.cert 1)⟩, ⟨.pathWorker 1 1, .read (.obj 1)⟩, ⟨.pathWorker 1 1, .release (.resp 1 1)⟩, ⟨.user 1, .acquire (.resp 1 1)⟩, ⟨.user 1, .acquire (.entry 0)⟩]⟩ :=
    .step _ _ r14 (.load _ 1 b cb 0 ⟨1, 1, 1⟩ rfl rfl hb2 (by rw [hroot]; exact GoMap.lookup_insert_self _ _ _) rfl)
  have r16 : RReach S H 2 ⟨⟨GoMap.insert ([] : GoMap Digest Nat) (fitDigest ca.root) 0, [⟨pk, ca, true, none⟩], [(a, .waiting 0 true), (b, .waiting 0 false)], [], 1, [.sig 0], false, false⟩, [⟨0, 0, 0⟩, ⟨1, 1, 1⟩], [0], fun j => if j = 1 then 1 else if j = 0 then 1 else 0,
      [⟨.user 0, .write (.cert 0)⟩, ⟨.user 0, .write (.obj 0)⟩, ⟨.user 0, .write (.obj 0)⟩, ⟨.user 0, .read (.cert 0)⟩, ⟨.user 0, .release (.pathMsg 0 1)⟩, ⟨.pathWorker 0 1, .acquire (.pathMsg 0 1)⟩, ⟨.pathWorker 0 1, .read (.cert 0)⟩, ⟨.pathWorker 0 1, .read (.obj 0)⟩, ⟨.pathWorker 0 1, .release (.resp 0 1)⟩, ⟨.user 0, .acquire (.resp 0 1)⟩, ⟨.user 0, .write (.fields 0)⟩, ⟨.user 0, .write (.err 0)⟩, ⟨.user 0, .release (.entry 0)⟩, ⟨.user 0, .read (.fields 0)⟩, ⟨.user 0, .release (.sigMsg 0)⟩, ⟨.sigWorker 0, .acquire (.sigMsg 0)⟩, ⟨.user 1, .write (.cert 1)⟩, ⟨.user 1, .write (.obj 1)⟩, ⟨.user 1, .write (.obj 1)⟩, ⟨.user 1, .read (.cert 1)⟩, ⟨.user 1, .release (.pathMsg 1 1)⟩, ⟨.pathWorker 1 1, .acquire (.pathMsg 1 1)⟩, ⟨.pathWorker 1 1, .read (.cert 1)⟩, ⟨.pathWorker 1 1, .read (.obj 1)⟩, ⟨.pathWorker 1 1, .release (.resp 1 1)⟩, ⟨.user 1, .acquire (.resp 1 1)⟩, ⟨.user 1, .acquire (.entry 0)⟩, ⟨.user 1, .read (.fields 0)⟩]⟩ :=
    .step _ _ r15 (.join _ 1 b 0 ⟨pk, ca, true, none⟩ ⟨1, 1, 1⟩ rfl rfl rfl rfl rfl)
  have r17 : RReach S H 2 ⟨⟨GoMap.insert ([] : GoMap Digest Nat) (fitDigest ca.root) 0, [⟨pk, ca, true, some (.error e)⟩], [(a, .waiting 0 true), (b, .waiting 0 false)], [], 2, [], false, false⟩, [⟨0, 0, 0⟩, ⟨1, 1, 1⟩], [0], fun j => if j = 1 then 1 else if j = 0 then 1 else 0,
      [⟨.user 0, .write (.cert 0)⟩, ⟨.user 0, .write (.obj 0)⟩, ⟨.user 0, .write (.obj 0)⟩, ⟨.user 0, .read (.cert 0)⟩, ⟨.user 0, .release (.pathMsg 0 1)⟩, ⟨.pathWorker 0 1, .acquire (.pathMsg 0 1)⟩, ⟨.pathWorker 0 1, .read (.cert 0)⟩, ⟨.pathWorker 0 1, .read (.obj 0)⟩, ⟨.pathWorker 0 1, .release (.resp 0 1)⟩, ⟨.user 0, .acquire (.resp 0 1)⟩, ⟨.user 0, .write (.fields 0)⟩, ⟨.user 0, .write (.err 0)⟩, ⟨.user 0, .release (.entry 0)⟩, ⟨.user 0, .read (.fields 0)⟩, ⟨.user 0, .release (.sigMsg 0)⟩, ⟨.sigWorker 0, .acquire (.sigMsg 0)⟩, ⟨.user 1, .write (.cert 1)⟩, ⟨.user 1, .write (.obj 1)⟩, ⟨.user 1, .write (.obj 1)⟩, ⟨.user 1, .read (.cert 1)⟩, ⟨.user 1, .release (.pathMsg 1 1)⟩, ⟨.pathWorker 1 1, .acquire (.pathMsg 1 1)⟩, ⟨.pathWorker 1 1, .read (.cert 1)⟩, ⟨.pathWorker 1 1, .read (.obj 1)⟩, ⟨.pathWorker 1 1, .release (.resp 1 1)⟩, ⟨.user 1, .acquire (.resp 1 1)⟩, ⟨.user 1, .acquire (.entry 0)⟩, ⟨.user 1, .read (.fields 0)⟩, ⟨.sigWorker 0, .read (.fields 0)⟩, ⟨.sigWorker 0, .read (.cert 0)⟩, ⟨.sigWorker 0, .write (.err 0)⟩, ⟨.sigWorker 0, .release (.ready 0)⟩]⟩ :=
    by have h := RReach.step _ _ r16 (.work _ [] [] 0 ⟨pk, ca, true, none⟩ 0 rfl rfl rfl rfl (by rw [hra]; simpa using he) rfl); simp only [hra] at h; exact h
  have r18 : RReach S H 2 ⟨⟨(GoMap.insert ([] : GoMap Digest Nat) (fitDigest ca.root) 0).erase (fitDigest ca.root), [⟨pk, ca, true, some (.error e)⟩], [(a, .done (.error e)), (b, .waiting 0 false)], [], 2, [], false, false⟩, [⟨0, 0, 0⟩, ⟨1, 1, 1⟩], [0], fun j => if j = 1 then 1 else if j = 0 then 1 else 0,
      [⟨.user 0, .write (.cert 0)⟩, ⟨.user 0, .write (.obj 0)⟩, ⟨.user 0, .write (.obj 0)⟩, ⟨.user 0, .read (.cert 0)⟩, ⟨.user 0, .release (.pathMsg 0 1)⟩, ⟨.pathWorker 0 1, .acquire (.pathMsg 0 1)⟩, ⟨.pathWorker 0 1, .read (.cert 0)⟩, ⟨.pathWorker 0 1, .read (.obj 0)⟩, ⟨.pathWorker 0 1, .release (.resp 0 1)⟩, ⟨.user 0, .acquire (.resp 0 1)⟩, ⟨.user 0, .write (.fields 0)⟩, ⟨.user 0, .write (.err 0)⟩, ⟨.user 0, .release (.entry 0)⟩, ⟨.user 0, .read (.fields 0)⟩, ⟨.user 0, .release (.sigMsg 0)⟩, ⟨.sigWorker 0, .acquire (.sigMsg 0)⟩, ⟨.user 1, .write (.cert 1)⟩, ⟨.user 1, .write (.obj 1)⟩, ⟨.user 1, .write (.obj 1)⟩, ⟨.user 1, .read (.cert 1)⟩, ⟨.user 1, .release (.pathMsg 1 1)⟩, ⟨.pathWorker 1 1, .acquire (.pathMsg 1 1)⟩, ⟨.pathWorker 1 1, .read (.cert 1)⟩, ⟨.pathWorker 1 1, .read (.obj 1)⟩, ⟨.pathWorker 1 1, .release (.resp 1 1)⟩, ⟨.user 1, .acquire (.resp 1 1)⟩, ⟨.user 1, .acquire (.entry 0)⟩, ⟨.user 1, .read (.fields 0)⟩, ⟨.sigWorker 0, .read (.fields 0)⟩, ⟨.sigWorker 0, .read (.cert 0)⟩, ⟨.sigWorker 0, .write (.err 0)⟩, ⟨.sigWorker 0, .release (.ready 0)⟩, ⟨.user 0, .acquire (.ready 0)⟩, ⟨.user 0, .read (.err 0)⟩, ⟨.user 0, .read (.fields 0)⟩, ⟨.user 0, .read (.cert 0)⟩, ⟨.user 0, .read (.cert 0)⟩, ⟨.user 0, .write (.obj 0)⟩]⟩ :=
    .step _ _ r17 (.reject _ 0 a ca 0 true ⟨pk, ca, true, some (.error e)⟩ e ⟨0, 0, 0⟩ 0 rfl rfl ha2 rfl rfl (.inl rfl) rfl rfl)
  have r19 : RReach S H 2 ⟨⟨((GoMap.insert ([] : GoMap Digest Nat) (fitDigest ca.root) 0).erase (fitDigest ca.root)).erase (fitDigest cb.root), [⟨pk, ca, true, some (.error e)⟩], [(a, .done (.error e)), (b, .done (.error e))], [], 2, [], false, false⟩, [⟨0, 0, 0⟩, ⟨1, 1, 1⟩], [0], fun j => if j = 1 then 1 else if j = 0 then 1 else 0,
      [⟨.user 0, .write (.cert 0)⟩, ⟨.user 0, .write (.obj 0)⟩, ⟨.user 0, .write (.obj 0)⟩, ⟨.user 0, .read (.cert 0)⟩, ⟨.user 0, .release (.pathMsg 0 1)⟩, ⟨.pathWorker 0 1, .acquire (.pathMsg 0 1)⟩, ⟨.pathWorker 0 1, .read (.cert 0)⟩, ⟨.pathWorker 0 1, .read (.obj 0)⟩, ⟨.pathWorker 0 1, .release (.resp 0 1)⟩, ⟨.user 0, .acquire (.resp 0 1)⟩, ⟨.user 0, .write (.fields 0)⟩, ⟨.user 0, .write (.err 0)⟩, ⟨.user 0, .release (.entry 0)⟩, ⟨.user 0, .read (.fields 0)⟩, ⟨.user 0, .release (.sigMsg 0)⟩, ⟨.sigWorker 0, .acquire (.sigMsg 0)⟩, ⟨.user 1, .write (.cert 1)⟩, ⟨.user 1, .write (.obj 1)⟩, ⟨.user 1, .write (.obj 1)⟩, ⟨.user 1, .read (.cert 1)⟩, ⟨.user 1, .release (.pathMsg 1 1)⟩, ⟨.pathWorker 1 1, .acquire (.pathMsg 1 1)⟩, ⟨.pathWorker 1 1, .read (.cert 1)⟩, ⟨.pathWorker 1 1, .read (.obj 1)⟩, ⟨.pathWorker 1 1, .release (.resp 1 1)⟩, ⟨.user 1, .acquire (.resp 1 1)⟩, ⟨.user 1, .acquire (.entry 0)⟩, ⟨.user 1, .read (.fields 0)⟩, ⟨.sigWorker 0, .read (.fields 0)⟩, ⟨.sigWorker 0, .read (.cert 0)⟩, ⟨.sigWorker 0, .write (.err 0)⟩, ⟨.sigWorker 0, .release (.ready 0)⟩, ⟨.user 0, .acquire (.ready 0)⟩, ⟨.user 0, .read (.err 0)⟩, ⟨.user 0, .read (.fields 0)⟩, ⟨.user 0, .read (.cert 0)⟩, ⟨.user 0, .read (.cert 0)⟩, ⟨.user 0, .write (.obj 0)⟩, ⟨.user 1, .acquire (.ready 0)⟩, ⟨.user 1, .read (.err 0)⟩, ⟨.user 1, .read (.fields 0)⟩, ⟨.user 1, .read (.cert 0)⟩, ⟨.user 1, .read (.cert 1)⟩, ⟨.user 1, .write (.obj 1)⟩]⟩ :=
    .step _ _ r18 (.reject _ 1 b cb 0 false ⟨pk, ca, true, some (.error e)⟩ e ⟨1, 1, 1⟩ 0 rfl rfl hb2 rfl rfl (.inr hsig) rfl rfl)
  refine ⟨_, r19, ?_, rfl, rfl, rfl⟩
  intro i j m m' hi hj hx
  rcases i with _ | _ | i <;> rcases j with _ | _ | j <;> simp at hi hj <;> subst hi <;> subst hj <;> simp at hx ⊢

/-- Such messages and certificates exist. -/
theorem two_calls_toy (enc : Bytes) : ∃ s, RReach toySig toyHash 2 s ∧ Separate s ∧ s.inner.calls.map Prod.snd = [.done (.error badSignature), .done (.error badSignature)] ∧
    s.trace[41]? = some ⟨.user 1, .read (.cert 0)⟩ ∧ s.trace.drop 42 = [⟨.user 1, .read (.cert 1)⟩, ⟨.user 1, .write (.obj 1)⟩] := by
  refine two_calls toySig toyHash (toySig.pub (fitDigest [])) enc (leafCert toyHash enc []) (leafCert toyHash enc [0]) badSignature ?_ (by simp [badSignature]) (leafCert_auth toyHash enc _) (leafCert_auth toyHash enc _) rfl (by simp [leafCert])
  have hv : toySig.valid (toySig.pub (fitDigest [])) (fitDigest (leafCert toyHash enc []).root) (leafCert toyHash enc []).signature = false := by
    have hl := toySig.pub_len (fitDigest [])
    have : ([] : Bytes) ≠ toySig.pub (fitDigest []) ++ (fitDigest (leafCert toyHash enc []).root).1 := by
      intro h
      have := congrArg List.length h
      rw [List.length_append, hl, List.length_nil] at this
      omega
    exact decide_eq_false this
  have hl : List.length (toySig.pub (fitDigest [])) = 32 := toySig.pub_len (fitDigest [])
  have ho : owVerify toySig (toySig.pub (fitDigest [])) (fitDigest (leafCert toyHash enc []).root) (leafCert toyHash enc []).signature = .ok false := by
    unfold owVerify
    rw [if_neg (by simpa using hl), hv]
  unfold sigResult
  rw [ho]

/-- The certificate is not given back: another call may still compare signatures with it. If the first of the two goroutines changes its certificate after Verify has returned, that is a race. -/
theorem C128_certificate_is_kept (enc : Bytes) : ∃ s, RReach toySig toyHash 2 s ∧ Separate s ∧ (∀ pc ∈ s.inner.calls.map Prod.snd, ∃ r, pc = .done r) ∧
    RaceFree s.trace ∧ ¬ RaceFree (s.trace ++ [⟨.user 0, .write (.cert 0)⟩]) := by
  obtain ⟨s, h1, h2, h3, h4, h5⟩ := two_calls_toy enc
  refine ⟨s, h1, h2, ?_, C128_race_free h1 h2, fun hrf => ?_⟩
  · rw [h3]; simp
  · have hsplit : s.trace = s.trace.take 42 ++ s.trace.drop 42 := (List.take_append_drop 42 _).symm
    have hlen : s.trace.length = 44 := by
      have := congrArg List.length h5
      have h41 := (List.getElem?_eq_some_iff.1 h4).1
      simp only [List.length_drop, List.length_cons, List.length_nil] at this
      omega
    have e1 : (s.trace ++ [(⟨.user 0, .write (.cert 0)⟩ : Entry)])[41]? = some ⟨.user 1, .read (.cert 0)⟩ := by
      rw [List.getElem?_append_left (by omega)]; exact h4
    have e2 : (s.trace ++ [(⟨.user 0, .write (.cert 0)⟩ : Entry)])[44]? = some ⟨.user 0, .write (.cert 0)⟩ := by
      rw [List.getElem?_append_right (by omega), hlen]; rfl
    have hb := hrf 41 44 _ _ (by omega) e1 e2 ⟨.cert 0, .inr ⟨rfl, rfl⟩⟩
    have := hb_stuck_of hb e1 e2 (by
      intro k e hk he hg o
      by_cases hk41 : k = 41
      · subst hk41; rw [e1] at he; cases he; simp
      · by_cases hk44 : k < 44
        · rw [List.getElem?_append_left (by omega)] at he
          have : (s.trace.drop 42)[k - 42]? = some e := by rw [List.getElem?_drop, show 42 + (k - 42) = k by omega]; exact he
          rw [h5] at this
          have hk' : k = 42 ∨ k = 43 := by omega
          rcases hk' with rfl | rfl <;> simp at this <;> subst this <;> simp
        · rw [List.getElem?_append_right (by omega), hlen] at he
          have : k = 44 := by
            have := (List.getElem?_eq_some_iff.1 he).1
            simp at this; omega
          subst this; simp at he; subst he; simp)
    simp at this

end Resmix.Rrpc.VerifierRace
