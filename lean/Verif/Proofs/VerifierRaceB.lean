import Verif.Proofs.VerifierRace
set_option autoImplicit false
namespace Resmix.Rrpc.VerifierRace
open Resmix.Race Resmix.Merkle Resmix.Rrpc

theorem snoc2 {α : Type} (l : List α) (a b : α) : l ++ [a, b] = l ++ [a] ++ [b] := by simp
theorem snoc3 {α : Type} (l : List α) (a b c : α) : l ++ [a, b, c] = l ++ [a] ++ [b] ++ [c] := by simp
theorem snoc4 {α : Type} (l : List α) (a b c d : α) : l ++ [a, b, c, d] = l ++ [a] ++ [b] ++ [c] ++ [d] := by simp
theorem snoc6 {α : Type} (l : List α) (a b c d e f : α) : l ++ [a, b, c, d, e, f] = l ++ [a] ++ [b] ++ [c] ++ [d] ++ [e] ++ [f] := by simp

/-- Reading a frozen location. -/
theorem Link.rd {s : RState} {γ : Gh} {tr : List Entry} (h : Link s γ) (hS : Sound γ tr) {g : Gor} {l : Loc} (hl : Froz γ l) (hK : γ.K (.gor g) l)
    (herr : ∀ (t : Nat) (z : VTask), l = .err t → s.inner.tasks[t]? = some z → z.result ≠ none) :
    ∃ γ' : Gh, Link s γ' ∧ Sound γ' (tr ++ [⟨g, .read l⟩]) ∧ γ'.K = γ.K :=
  ⟨_, h.read hl herr, hS.read hl.choose_spec hK, rfl⟩

theorem pq {H : HashFn} {n : Nat} {s : PState} (h : PInv H n s) (i : Nat) (hi : .path i ∈ s.chan ∨ .path i ∈ s.busy) : ∃ c, s.calls[i]? = some (c, .queued) := by
  obtain ⟨c, _, h, _⟩ := h.path i hi; exact ⟨c, h⟩

theorem Ctl.certOf {s : RState} (h : Ctl s) {t : Nat} {z : VTask} (ht : s.inner.tasks[t]? = some z) : ∃ k, s.certs[t]? = some k := by
  have := (List.getElem?_eq_some_iff.1 ht).1
  exact ⟨s.certs[t]'(by rw [h.lenT]; exact this), List.getElem?_eq_getElem _⟩

theorem set_self {α : Type} {l : List α} {i : Nat} {a : α} (h : l[i]? = some a) : l.set i a = l := by
  apply List.ext_getElem?
  intro j
  rw [List.getElem?_set]
  by_cases hij : i = j
  · subst hij; rw [if_pos rfl, if_pos (List.getElem?_eq_some_iff.1 h).1, h]
  · rw [if_neg hij]

/-- The end of a wait for `ready` (lines 125-137). -/
theorem after_ready {s : RState} {γ : Gh} {tr : List Entry} (h : Link s γ) (hS : Sound γ tr) (hc : Ctl s) {t : Nat} {z : VTask} {r : Go Unit} (hz : s.inner.tasks[t]? = some z)
    (hr : z.result = some r) (u : Nat) : ∃ γ' : Gh, Link s γ' ∧ Sound γ' (tr ++ [⟨.user u, .acquire (.ready t)⟩] ++ [⟨.user u, .read (.err t)⟩]) ∧ (∀ h l, γ.K h l → γ'.K h l) := by
  obtain ⟨k, hk⟩ := hc.certOf hz
  have h1 := h.mono (γ' := γ.learn (.user u) (.ready t)) (fun _ => rfl) (fun _ _ hl => .inl hl)
  have hS1 := hS.learn (.user u) (.ready t)
  have hb := (h.tasks t z k hz hk).2.2.2.2 r hr
  obtain ⟨γ', h2, hS2, hK2⟩ := h1.rd hS1 (g := .user u) (l := .err t) ((h1.tasks t z k hz hk).2.2.2.2 r hr).1 (.inr ⟨rfl, hb.2⟩)
    (fun t' z' e1 e2 => by cases e1; rw [hz] at e2; cases e2; rw [hr]; simp)
  exact ⟨γ', h2, hS2, fun x l hl => by rw [hK2]; exact .inl hl⟩

set_option maxHeartbeats 4000000 in
/-- Every step keeps to the ownership discipline. -/
theorem own_step {S : SigScheme} {H : HashFn} {n : Nat} {s s' : RState} {γ : Gh} (hs : RStep S H n s s') (hc : Ctl s) (hp : PInv H n s.inner) (hsep' : Separate s')
    (hsep : Separate s) (h : Link s γ) (hS : Sound γ s.trace) : ∃ γ', Link s' γ' ∧ Sound γ' s'.trace := by
  cases hs with
  | call c u o k h1 h2 =>
    -- the certificate
    obtain ⟨γ1, hS1, e1, e2, e3, e4, e5, e6⟩ : ∃ γ1 : Gh, Sound γ1 (s.trace ++ made s.who u k) ∧ (∀ l, γ.st l ≠ .fresh → γ1.st l = γ.st l) ∧ (∀ l, l ≠ .cert k → γ1.st l = γ.st l) ∧
        (∀ h l, γ.st l ≠ .fresh → γ.K h l → γ1.K h l) ∧ Froz γ1 (.cert k) ∧ γ1.K (.gor (.user u)) (.cert k) ∧ True := by
      unfold made
      by_cases hex : ∃ m ∈ s.who, m.cert = k
      · rw [if_pos hex, List.append_nil]
        obtain ⟨m, hm, hmk⟩ := hex
        obtain ⟨j, hj⟩ := List.getElem?_of_mem hm
        have hw : (s.who ++ [(⟨u, o, k⟩ : Meta)])[j]? = some m := by rw [List.getElem?_append_left (List.getElem?_eq_some_iff.1 hj).1]; exact hj
        have hu : m.user = u := hsep' j s.who.length m ⟨u, o, k⟩ hw (by simp) (.inr hmk)
        have := h.cert j m hj
        rw [hmk, hu] at this
        exact ⟨γ, hS, fun _ _ => rfl, fun _ _ => rfl, fun _ _ _ hk => hk, this.1, this.2, trivial⟩
      · rw [if_neg hex]
        have hfr : γ.st (.cert k) = .fresh := h.certFresh k fun i m hm e => hex ⟨m, List.mem_of_getElem? hm, e⟩
        refine ⟨_, hS.newFrozen (g := .user u) hfr, ?_, ?_, ?_, ⟨true, by simp [Ghost.freeze]⟩, by simp [Ghost.freeze], trivial⟩
        · intro l hl
          have : l ≠ .cert k := by rintro rfl; exact hl hfr
          simp [Ghost.freeze, this]
        · intro l hl; simp [Ghost.freeze, hl]
        · intro x l hl hk
          have : l ≠ .cert k := by rintro rfl; exact hl hfr
          simpa [Ghost.freeze, this] using hk
    rw [← List.append_assoc]
    by_cases hex : ∃ (j : Nat) (m : Meta), s.who[j]? = some m ∧ m.obj = o
    · obtain ⟨j, m, hj, hmo⟩ := hex
      have hw : (s.who ++ [(⟨u, o, k⟩ : Meta)])[j]? = some m := by rw [List.getElem?_append_left (List.getElem?_eq_some_iff.1 hj).1]; exact hj
      have hu : m.user = u := hsep' j s.who.length m ⟨u, o, k⟩ hw (by simp) (.inl hmo)
      have hid := h.idle hsep hj (by rw [hu]; exact h2)
      rw [hmo, hu] at hid
      have ho1 : γ1.st (.obj o) = .excl (.gor (.user u)) := by rw [e1 _ (by rw [hid]; simp)]; exact hid
      refine ⟨γ1, h.call hc (pq hp) h2 hsep' rfl rfl rfl rfl rfl rfl rfl (fun l _ hl => e1 l hl) (fun l _ hl hf => by rw [e2 l hl]; exact hf) e3 ho1 e4 e5, hS1.owner ho1 rfl (.inr rfl)⟩
    · have hfr : γ.st (.obj o) = .fresh := h.objFresh o fun i m hm e => hex ⟨i, m, hm, e⟩
      have hfr1 : γ1.st (.obj o) = .fresh := by rw [e2 _ (by simp)]; exact hfr
      refine ⟨_, h.call hc (pq hp) h2 hsep' rfl rfl rfl rfl rfl rfl rfl ?_ ?_ ?_ ?_ ?_ ?_, hS1.new (g := .user u) hfr1⟩
      · intro l hl hf; simp only [Ghost.set, if_neg hl]; exact e1 l hf
      · intro l hl hl' hf; simp only [Ghost.set, if_neg hl]; rw [e2 l hl']; exact hf
      · exact e3
      · simp [Ghost.set]
      · obtain ⟨b, hb⟩ := e4; exact ⟨b, by simp [Ghost.set, hb]⟩
      · exact e5
  | touch i m h1 h2 => exact ⟨γ, h.same rfl rfl rfl rfl rfl (fun _ hx => hx) (fun _ hx => hx), hS.owner (h.idle hsep h1 h2) rfl (.inr rfl)⟩
  | noCert i c m h1 h2 h3 h4 =>
    exact ⟨γ, h.goto (pq hp) h4 h2 rfl rfl rfl rfl rfl rfl rfl rfl (fun t z hz => ⟨z, hz, rfl⟩) rfl (fun t z k hk => by cases hk), hS.owner (h.home hc hsep h4 h2 trivial rfl) rfl (.inr rfl)⟩
  | submit i c cert m h1 h2 h3 h4 h5 =>
    have hnc : .path i ∉ s.inner.chan := fun hx => by obtain ⟨c', hc'⟩ := pq hp i (.inl hx); rw [h2] at hc'; cases hc'
    have hnb : .path i ∉ s.inner.busy := fun hx => by obtain ⟨c', hc'⟩ := pq hp i (.inr hx); rw [h2] at hc'; cases hc'
    have hS1 := hS.owner (e := ⟨.user m.user, .write (.obj m.obj)⟩) (h.home hc hsep h5 h2 trivial rfl) rfl (.inr rfl)
    obtain ⟨γ2, l2, hS2, -⟩ := h.rd hS1 (g := .user m.user) (h.cert i m h5).1 (h.cert i m h5).2 (fun t z e => by cases e)
    have hS3 := hS2.give (g := .user m.user) (.pathMsg i (s.att i + 1)) (l2.home hc hsep h5 h2 trivial rfl)
    rw [snoc3]
    refine ⟨_, l2.move hc hsep (pq hp) h5 h2 trivial (pc' := .queued) rfl rfl rfl rfl ?_ rfl ?_ ?_ ?_ ?_ ?_ ?_ ?_ ?_, hS3⟩
    · intro j hj; simp [hj]
    · intro x hx hm
      simp only [PState.goto, List.mem_append, List.mem_singleton] at hm
      exact hm.resolve_right hx
    · intro x _ hm; exact hm
    · intro l hl; simp only [Ghost.set, if_neg hl, Ghost.tell]
    · intro x l hl; exact .inl hl
    · intro hx; cases hx
    · intro _; exact ⟨by simp [Ghost.set], .inr ⟨by simp, (l2.cert i m h5).2⟩⟩
    · intro hx; exact absurd hx hnb
    · intro r hx; cases hx
  | pickPath i q h1 h2 h3 =>
    have hin : .path i ∈ s.inner.chan := by rw [h3]; exact List.mem_cons_self
    obtain ⟨c, hcall⟩ := pq hp i (.inl hin)
    have hil := (List.getElem?_eq_some_iff.1 hcall).1
    obtain ⟨m, hm⟩ : ∃ m, s.who[i]? = some m := ⟨s.who[i]'(by rw [hc.len]; exact hil), List.getElem?_eq_getElem _⟩
    obtain ⟨b1, b2⟩ := h.inChan i m hin hm
    have hnq : .path i ∉ q := by have := hp.nodupC; rw [h3] at this; exact (List.nodup_cons.1 this).1
    refine ⟨_, h.move hc hsep (pq hp) hm hcall trivial (pc' := .queued) rfl rfl rfl rfl (fun _ _ => rfl) (set_self hcall).symm ?_ ?_ ?_ ?_ ?_ ?_ ?_ ?_, hS.get (.pathWorker i (s.att i)) b1⟩
    · intro x _ hx; rw [h3]; exact List.mem_cons_of_mem _ hx
    · intro x hx hm; exact (List.mem_cons.1 hm).resolve_left hx
    · intro l hl; simp only [Ghost.set, if_neg hl, Ghost.learn]
    · intro x l hl; exact .inl hl
    · intro hx; cases hx
    · intro hx; exact absurd hx hnq
    · intro _; exact ⟨by simp [Ghost.set], .inr ⟨rfl, b2⟩⟩
    · intro r hx; cases hx
  | pickSig t q h1 h2 h3 =>
    have hin : .sig t ∈ s.inner.chan := by rw [h3]; exact List.mem_cons_self
    refine ⟨_, h.pickSig hin rfl rfl rfl rfl rfl ?_ ?_ rfl, hS.learn (.sigWorker t) (.sigMsg t)⟩
    · intro x hx; rw [h3]; exact List.mem_cons_of_mem _ hx
    · intro x hx; exact List.mem_cons.1 hx
  | answer l₁ l₂ i c cert m h1 h2 h3 h4 h5 =>
    have hin : .path i ∈ s.inner.busy := by rw [h2]; simp
    have hnc : .path i ∉ s.inner.chan := fun hx => hp.disj _ hx hin
    have hnb : .path i ∉ l₁ ++ l₂ := by
      have := hp.nodupB; rw [h2] at this
      have := List.nodup_middle.1 this
      exact (List.nodup_cons.1 this).1
    obtain ⟨b1, b2⟩ := h.inBusy i m hin h5
    obtain ⟨γ1, l1, hS1, -⟩ := h.rd hS (g := .pathWorker i (s.att i)) (h.cert i m h5).1 b2 (fun t z e => by cases e)
    have b3 := (l1.inBusy i m hin h5).1
    have hS2 := hS1.owner (e := ⟨.pathWorker i (s.att i), .read (.obj m.obj)⟩) b3 rfl (.inl rfl)
    have hS3 := hS2.give (g := .pathWorker i (s.att i)) (.resp i (s.att i)) b3
    rw [snoc3]
    refine ⟨_, l1.move hc hsep (pq hp) h5 h3 trivial (pc' := .answered (authPath H cert c.enc)) rfl rfl rfl rfl (fun _ _ => rfl) rfl ?_ ?_ ?_ ?_ ?_ ?_ ?_ ?_, hS3⟩
    · intro x _ hx; exact hx
    · intro x hx hm
      simp only [PState.goto, List.mem_append] at hm
      rw [h2]; simp only [List.mem_append, List.mem_cons]; tauto
    · intro l hl; simp only [Ghost.set, if_neg hl, Ghost.tell]
    · intro x l hl; exact .inl hl
    · intro hx; cases hx
    · intro hx; exact absurd hx hnc
    · intro hx; exact absurd hx hnb
    · intro r _; simp [Ghost.set]
  | answerTwice i h1 h2 h3 => exact ⟨γ, h.same rfl rfl rfl rfl rfl (fun _ hx => hx) (fun _ hx => hx), hS⟩
  | pathOk i c m h1 h2 h3 =>
    have hnc : .path i ∉ s.inner.chan := fun hx => by obtain ⟨c', hc'⟩ := pq hp i (.inl hx); rw [h2] at hc'; cases hc'
    have hnb : .path i ∉ s.inner.busy := fun hx => by obtain ⟨c', hc'⟩ := pq hp i (.inr hx); rw [h2] at hc'; cases hc'
    refine ⟨_, h.move hc hsep (pq hp) h3 h2 trivial (pc' := .authed) rfl rfl rfl rfl (fun _ _ => rfl) rfl ?_ ?_ ?_ ?_ ?_ ?_ ?_ ?_, hS.get (.user m.user) (h.ans i m c _ h2 h3)⟩
    · intro x _ hx; exact hx
    · intro x _ hx; exact hx
    · intro l hl; simp only [Ghost.set, if_neg hl, Ghost.learn]
    · intro x l hl; exact .inl hl
    · intro _; simp [Ghost.set]
    · intro hx; exact absurd hx hnc
    · intro hx; exact absurd hx hnb
    · intro r hx; cases hx
  | pathBad i c e m h1 h2 h3 =>
    have hnc : .path i ∉ s.inner.chan := fun hx => by obtain ⟨c', hc'⟩ := pq hp i (.inl hx); rw [h2] at hc'; cases hc'
    have hnb : .path i ∉ s.inner.busy := fun hx => by obtain ⟨c', hc'⟩ := pq hp i (.inr hx); rw [h2] at hc'; cases hc'
    have hS1 := hS.get (.user m.user) (h.ans i m c _ h2 h3)
    have ho : ((γ.learn (.user m.user) (.resp i (s.att i))).set (.obj m.obj) (.excl (.gor (.user m.user)))).st (.obj m.obj) = .excl (.gor (.user m.user)) := by simp [Ghost.set]
    rw [snoc2]
    refine ⟨_, h.move hc hsep (pq hp) h3 h2 trivial (pc' := .done (.error e)) rfl rfl rfl rfl (fun _ _ => rfl) rfl ?_ ?_ ?_ ?_ ?_ ?_ ?_ ?_, hS1.owner ho rfl (.inr rfl)⟩
    · intro x _ hx; exact hx
    · intro x _ hx; exact hx
    · intro l hl; simp only [Ghost.set, if_neg hl, Ghost.learn]
    · intro x l hl; exact .inl hl
    · intro _; exact ho
    · intro hx; exact absurd hx hnc
    · intro hx; exact absurd hx hnb
    · intro r hx; cases hx
  | load i c cert t m h1 h2 h3 h4 h5 =>
    have l1 := h.mono (γ' := γ.learn (.user m.user) (.entry t)) (fun _ => rfl) (fun _ _ hl => .inl hl)
    refine ⟨_, l1.goto (pq hp) h5 h2 (pc' := .loaded t) rfl rfl rfl rfl rfl rfl rfl rfl (fun t z hz => ⟨z, hz, rfl⟩) rfl ?_, hS.learn (.user m.user) (.entry t)⟩
    intro t' z k hk hz hck
    cases hk
    obtain ⟨b1, b2, b3⟩ := (h.tasks t z k hz hck).2.2.1
    exact ⟨.inr ⟨rfl, b1⟩, .inr ⟨rfl, b2⟩, fun e => .inr ⟨rfl, b3 e⟩⟩
  | store i c cert m h1 h2 h3 h4 h5 =>
    obtain ⟨f1, f2⟩ := h.tFresh s.inner.tasks.length (le_refl _)
    obtain ⟨⟨b, k1⟩, k2⟩ := h.cert i m h5
    have hS1 := hS.newFrozen (g := .user m.user) f1
    have hS2 := hS1.newFrozen (g := .user m.user) (l := .err s.inner.tasks.length) (by simp [Ghost.freeze, f2])
    have hS3 := hS2.tell (.user m.user) (.entry s.inner.tasks.length)
    rw [snoc3]
    refine ⟨_, ?_, hS3⟩
    let s1 : RState := ⟨{ s.inner with map := s.inner.map.insert (fitDigest cert.root) s.inner.tasks.length, tasks := s.inner.tasks ++ [{ pk := c.pk, cert := cert, taken := false, result := none }] }, s.who, s.certs ++ [m.cert], s.att, s.trace⟩
    have hl1 : Link s1 (((γ.freeze (.fields s.inner.tasks.length) true (.gor (.user m.user))).freeze (.err s.inner.tasks.length) true (.gor (.user m.user))).tell (.user m.user) (.entry s.inner.tasks.length)) := by
      refine h.newTask hc ?_ (z₀ := { pk := c.pk, cert := cert, taken := false, result := none }) (k₀ := m.cert) rfl rfl rfl rfl rfl rfl rfl rfl ?_ ?_ ?_ ?_ ?_ ?_
      · intro t ht
        obtain ⟨z, hz, -⟩ := hp.sig t ht
        exact (List.getElem?_eq_some_iff.1 hz).1
      · intro l hl hl'; simp [Ghost.freeze, Ghost.tell, hl, hl']
      · intro x l hl hl' hk; left; simp [Ghost.freeze, hl, hl', hk]
      · exact ⟨true, by simp [Ghost.freeze, Ghost.tell]⟩
      · simp [Ghost.freeze, Ghost.tell]
      · exact ⟨b, k1⟩
      · refine ⟨.inr ⟨rfl, ?_⟩, .inr ⟨rfl, ?_⟩, fun _ => .inr ⟨rfl, ?_⟩⟩
        · simp [Ghost.freeze]
        · simp [Ghost.freeze, k2]
        · simp [Ghost.freeze]
    refine hl1.goto (s := s1) (pq (s := s.inner) hp) (i := i) (m := m) (c := c) (pc := .authed) (pc' := .loaded s.inner.tasks.length) h5 h2 rfl rfl rfl rfl rfl rfl rfl rfl (fun t z hz => ⟨z, hz, rfl⟩) rfl ?_
    intro t z k hk hz hck
    cases hk
    have hck' : k = m.cert := by
      have : (s.certs ++ [m.cert])[s.inner.tasks.length]? = some k := hck
      rw [← hc.lenT] at this; simpa using this.symm
    subst hck'
    refine ⟨.inl ?_, .inl ?_, fun _ => .inl ?_⟩
    · simp [Ghost.freeze]
    · simp [Ghost.freeze, k2]
    · simp [Ghost.freeze]
  | take i c t task m h1 h2 h3 h4 h5 =>
    obtain ⟨k, hk⟩ := hc.certOf h3
    obtain ⟨γ1, l1, hS1, -⟩ := h.rd hS (g := .user m.user) (h.tasks t task k h3 hk).1 (h.sees i m c _ t task k h5 h2 rfl h3 hk).1 (fun t z e => by cases e)
    refine ⟨γ1, l1.goto (pq hp) h5 h2 (pc' := .chosen t) rfl rfl rfl rfl rfl rfl rfl rfl ?_ ?_ ?_, hS1⟩
    · intro t' z' hz'
      have hz'' : (s.inner.tasks.set t { task with taken := true })[t']? = some z' := hz'
      rw [List.getElem?_set] at hz''
      by_cases htt : t = t'
      · subst htt
        rw [if_pos rfl, if_pos (List.getElem?_eq_some_iff.1 h3).1] at hz''
        cases hz''
        exact ⟨task, h3, rfl⟩
      · rw [if_neg htt] at hz''; exact ⟨z', hz'', rfl⟩
    · simp [PState.goto]
    · intro t' z k hk hz hck; cases hk; exact l1.sees i m c _ t z k h5 h2 rfl hz hck
  | join i c t task m h1 h2 h3 h4 h5 =>
    obtain ⟨k, hk⟩ := hc.certOf h3
    obtain ⟨γ1, l1, hS1, -⟩ := h.rd hS (g := .user m.user) (h.tasks t task k h3 hk).1 (h.sees i m c _ t task k h5 h2 rfl h3 hk).1 (fun t z e => by cases e)
    refine ⟨γ1, l1.goto (pq hp) h5 h2 (pc' := .waiting t false) rfl rfl rfl rfl rfl rfl rfl rfl (fun t z hz => ⟨z, hz, rfl⟩) rfl ?_, hS1⟩
    intro t' z k hk hz hck; cases hk; exact l1.sees i m c _ t z k h5 h2 rfl hz hck
  | submitSig i c t m h1 h2 h3 h4 =>
    let s1 : RState := { s with inner := s.inner.goto i c (.waiting t true) }
    have hl1 : Link s1 γ := h.goto (pq hp) h4 h2 (pc' := .waiting t true) rfl rfl rfl rfl rfl rfl rfl rfl (fun t z hz => ⟨z, hz, rfl⟩) rfl
      (fun t' z k hk hz hck => by cases hk; exact h.sees i m c _ t z k h4 h2 rfl hz hck)
    refine ⟨_, hl1.addSig (t₀ := t) rfl rfl rfl rfl rfl ?_ (fun _ hx => hx) rfl (fun z k hz hck => h.sees i m c _ t z k h4 h2 rfl hz hck), hS.tell (.user m.user) (.sigMsg t)⟩
    intro x hx
    simp only [PState.goto, List.mem_append, List.mem_singleton] at hx
    exact hx.symm
  | work l₁ l₂ t task k h1 h2 h3 h4 h5 h6 =>
    have hin : .sig t ∈ s.inner.busy := by rw [h2]; simp
    obtain ⟨v1, v2, v3⟩ := h.sigB t task k hin h3 h6
    obtain ⟨w1, w2, w3, w4, w5⟩ := h.tasks t task k h3 h6
    obtain ⟨γ1, l1, hS1, hK1⟩ := h.rd hS (g := .sigWorker t) w1 v1 (fun t z e => by cases e)
    obtain ⟨γ2, l2, hS2, hK2⟩ := l1.rd hS1 (g := .sigWorker t) (l1.tasks t task k h3 h6).2.1 (by rw [hK1]; exact v2) (fun t z e => by cases e)
    have herr := (l2.tasks t task k h3 h6).2.2.2.1 h4
    have hS3 := hS2.claim (o := .gor (.sigWorker t)) herr (by rw [hK2, hK1]; exact v3 h4)
    have hS4 := hS3.owner (e := ⟨.sigWorker t, .write (.err t)⟩) (g := .sigWorker t) (l := .err t) (by simp [Ghost.set]) rfl (.inr rfl)
    have hS5 := hS4.freeze (o := .gor (.sigWorker t)) (l := .err t) (by simp [Ghost.set])
    have hS6 := hS5.tell (.sigWorker t) (.ready t)
    rw [snoc4]
    refine ⟨_, l2.work h3 (r := sigResult S task.pk task.cert) rfl rfl rfl rfl rfl (fun _ hx => hx) ?_ ?_ ?_ ?_ ?_, hS6⟩
    · intro x hx
      simp only [List.mem_append] at hx
      rw [h2]; simp only [List.mem_append, List.mem_cons]; tauto
    · intro l hl; simp [Ghost.tell, Ghost.freeze, Ghost.set, hl]
    · intro x l hl hk; left; simpa [Ghost.freeze, Ghost.set, hl] using hk
    · exact ⟨false, by simp [Ghost.tell, Ghost.freeze]⟩
    · right; simp [Ghost.freeze]
  | workCrash t task h1 h2 h3 h4 => exact ⟨γ, h.same rfl rfl rfl rfl rfl (fun _ hx => hx) (fun _ hx => hx), hS⟩
  | workTwice t task r h1 h2 h3 h4 => exact ⟨γ, h.same rfl rfl rfl rfl rfl (fun _ hx => hx) (fun _ hx => hx), hS⟩
  | accept i c t mine task m h1 h2 h3 h4 h5 =>
    obtain ⟨γ1, l1, hS1, -⟩ := after_ready h hS hc h3 h4 m.user
    rw [snoc3]
    exact ⟨γ1, l1.goto (pq hp) h5 h2 (pc' := .done (.ok ())) rfl rfl rfl rfl rfl rfl rfl rfl (fun t z hz => ⟨z, hz, rfl⟩) rfl (fun t z k hk => by cases hk),
      hS1.owner (l1.home hc hsep h5 h2 trivial rfl) rfl (.inr rfl)⟩
  | retry i c cert t task e m k h1 h2 h3 h4 h5 h6 h7 h8 =>
    obtain ⟨γ1, l1, hS1, hK1⟩ := after_ready h hS hc h4 h5 m.user
    obtain ⟨v1, v2, -⟩ := l1.sees i m c _ t task k h7 h2 rfl h4 h8
    obtain ⟨γ2, l2, hS2, hK2⟩ := l1.rd hS1 (g := .user m.user) (l1.tasks t task k h4 h8).1 v1 (fun t z e => by cases e)
    obtain ⟨γ3, l3, hS3, hK3⟩ := l2.rd hS2 (g := .user m.user) (l2.tasks t task k h4 h8).2.1 (by rw [hK2]; exact v2) (fun t z e => by cases e)
    obtain ⟨γ4, l4, hS4, -⟩ := l3.rd hS3 (g := .user m.user) (l3.cert i m h7).1 (l3.cert i m h7).2 (fun t z e => by cases e)
    rw [snoc6]
    exact ⟨γ4, l4.goto (pq hp) h7 h2 (pc' := .start) rfl rfl rfl rfl rfl rfl rfl rfl (fun t z hz => ⟨z, hz, rfl⟩) rfl (fun t z k hk => by cases hk),
      hS4.owner (l4.home hc hsep h7 h2 trivial rfl) rfl (.inr rfl)⟩
  | reject i c cert t mine task e m k h1 h2 h3 h4 h5 h6 h7 h8 =>
    obtain ⟨γ1, l1, hS1, hK1⟩ := after_ready h hS hc h4 h5 m.user
    obtain ⟨v1, v2, -⟩ := l1.sees i m c _ t task k h7 h2 rfl h4 h8
    obtain ⟨γ2, l2, hS2, hK2⟩ := l1.rd hS1 (g := .user m.user) (l1.tasks t task k h4 h8).1 v1 (fun t z e => by cases e)
    obtain ⟨γ3, l3, hS3, hK3⟩ := l2.rd hS2 (g := .user m.user) (l2.tasks t task k h4 h8).2.1 (by rw [hK2]; exact v2) (fun t z e => by cases e)
    obtain ⟨γ4, l4, hS4, -⟩ := l3.rd hS3 (g := .user m.user) (l3.cert i m h7).1 (l3.cert i m h7).2 (fun t z e => by cases e)
    rw [snoc6]
    exact ⟨γ4, l4.goto (pq hp) h7 h2 (pc' := .done (.error e)) rfl rfl rfl rfl rfl rfl rfl rfl (fun t z hz => ⟨z, hz, rfl⟩) rfl (fun t z k hk => by cases hk),
      hS4.owner (l4.home hc hsep h7 h2 trivial rfl) rfl (.inr rfl)⟩
  | exit h1 h2 h3 => exact ⟨γ, h.same rfl rfl rfl rfl rfl (fun _ hx => hx) (fun _ hx => hx), hS⟩
  | clean d h1 => exact ⟨γ, h.same rfl rfl rfl rfl rfl (fun _ hx => hx) (fun _ hx => hx), hS⟩
  | stop h1 => exact ⟨γ, h.same rfl rfl rfl rfl rfl (fun _ hx => hx) (fun _ hx => hx), hS⟩

/-- The calls so far stay. -/
theorem RStep.who {S : SigScheme} {H : HashFn} {n : Nat} {s s' : RState} (hs : RStep S H n s s') {i : Nat} {m : Meta} (hm : s.who[i]? = some m) : s'.who[i]? = some m := by
  cases hs with
  | call c u o k h1 h2 => rw [List.getElem?_append_left (List.getElem?_eq_some_iff.1 hm).1]; exact hm
  | _ => exact hm

theorem Separate.prev {S : SigScheme} {H : HashFn} {n : Nat} {s s' : RState} (hs : RStep S H n s s') (h : Separate s') : Separate s :=
  fun i j m m' h1 h2 h3 => h i j m m' (hs.who h1) (hs.who h2) h3

theorem RReach.ctl {S : SigScheme} {H : HashFn} {n : Nat} {s : RState} (h : RReach S H n s) : Ctl s := by
  induction h with
  | init => exact .init n
  | step s s' _ hs ih => exact ih.step hs

theorem RReach.own {S : SigScheme} {H : HashFn} {n : Nat} {s : RState} (h : RReach S H n s) (hsep : Separate s) : ∃ γ : Gh, Link s γ ∧ Sound γ s.trace := by
  induction h with
  | init => exact ⟨_, .init n, .init⟩
  | step s s' hr hs ih =>
    obtain ⟨γ, h1, h2⟩ := ih (hsep.prev hs)
    exact own_step hs hr.ctl hr.pinv hsep (hsep.prev hs) h1 h2

end Resmix.Rrpc.VerifierRace
