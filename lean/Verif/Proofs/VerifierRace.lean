import Verif.Model.VerifierRace
import Verif.Proofs.Own
import Verif.Proofs.VerifierPool
set_option autoImplicit false
namespace Resmix.Rrpc.VerifierRace
open Resmix.Race Resmix.Merkle Resmix.Rrpc

/-- Every step is a step of Model/VerifierPool, or none. -/
theorem RStep.proj {S : SigScheme} {H : HashFn} {n : Nat} {s s' : RState} (h : RStep S H n s s') : PStep S H n s.inner s'.inner ∨ s'.inner = s.inner := by
  cases h with
  | call c u o k h1 h2 => exact .inl (.call _ c h1)
  | touch i m h1 h2 => exact .inr rfl
  | noCert i c m h1 h2 h3 h4 => exact .inl (.work _ _ (.noCert _ i c h1 h2 h3))
  | submit i c cert m h1 h2 h3 h4 h5 => exact .inl (.work _ _ (.submit _ i c cert h1 h2 h3 h4))
  | pickPath i q h1 h2 h3 => exact .inl (.work _ _ (.pick _ _ q h1 h2 h3))
  | pickSig t q h1 h2 h3 => exact .inl (.work _ _ (.pick _ _ q h1 h2 h3))
  | answer l₁ l₂ i c cert m h1 h2 h3 h4 h5 => exact .inl (.work _ _ (.answer _ l₁ l₂ i c cert h1 h2 h3 h4))
  | answerTwice i h1 h2 h3 => exact .inl (.work _ _ (.answerTwice _ i h1 h2 h3))
  | pathOk i c m h1 h2 h3 => exact .inl (.work _ _ (.pathOk _ i c h1 h2))
  | pathBad i c e m h1 h2 h3 => exact .inl (.work _ _ (.pathBad _ i c e h1 h2))
  | load i c cert t m h1 h2 h3 h4 h5 => exact .inl (.work _ _ (.load _ i c cert t h1 h2 h3 h4))
  | store i c cert m h1 h2 h3 h4 h5 => exact .inl (.work _ _ (.store _ i c cert h1 h2 h3 h4))
  | take i c t task m h1 h2 h3 h4 h5 => exact .inl (.work _ _ (.take _ i c t task h1 h2 h3 h4))
  | join i c t task m h1 h2 h3 h4 h5 => exact .inl (.work _ _ (.join _ i c t task h1 h2 h3 h4))
  | submitSig i c t m h1 h2 h3 h4 => exact .inl (.work _ _ (.submitSig _ i c t h1 h2 h3))
  | work l₁ l₂ t task k h1 h2 h3 h4 h5 h6 => exact .inl (.work _ _ (.work _ l₁ l₂ t task h1 h2 h3 h4 h5))
  | workCrash t task h1 h2 h3 h4 => exact .inl (.work _ _ (.workCrash _ t task h1 h2 h3 h4))
  | workTwice t task r h1 h2 h3 h4 => exact .inl (.work _ _ (.workTwice _ t task r h1 h2 h3 h4))
  | accept i c t mine task m h1 h2 h3 h4 h5 => exact .inl (.work _ _ (.accept _ i c t mine task h1 h2 h3 h4))
  | retry i c cert t task e m k h1 h2 h3 h4 h5 h6 h7 h8 => exact .inl (.work _ _ (.retry _ i c cert t task e h1 h2 h3 h4 h5 h6))
  | reject i c cert t mine task e m k h1 h2 h3 h4 h5 h6 h7 h8 => exact .inl (.work _ _ (.reject _ i c cert t mine task e h1 h2 h3 h4 h5 h6))
  | exit h1 h2 h3 => exact .inl (.work _ _ (.exit _ h1 h2 h3))
  | clean d h1 => exact .inl (.clean _ d h1)
  | stop h1 => exact .inl (.stop _ h1)

theorem RReach.proj {S : SigScheme} {H : HashFn} {n : Nat} {s : RState} (h : RReach S H n s) : PReach S H n s.inner := by
  induction h with
  | init => exact .init
  | step s s' _ hs ih =>
    rcases hs.proj with h | h
    · exact .step _ _ ih h
    · rw [h]; exact ih

theorem RReach.pinv {S : SigScheme} {H : HashFn} {n : Nat} {s : RState} (h : RReach S H n s) : PInv H n s.inner := by
  induction h with
  | init => exact .init H n
  | step s s' _ hs ih =>
    rcases hs.proj with h | h
    · exact ih.step h
    · rw [h]; exact ih

/-- The task object a call has got. -/
def pcTask : PPc → Option Nat
  | .loaded t => some t
  | .chosen t => some t
  | .waiting t _ => some t
  | _ => none

/-- The object of a call is not with its goroutine. -/
def away : PPc → Bool
  | .queued => true
  | .answered _ => true
  | _ => false

structure Ctl (s : RState) : Prop where
  len : s.who.length = s.inner.calls.length
  lenT : s.certs.length = s.inner.tasks.length
  one : ∀ (i j : Nat) (m m' : Meta) (c c' : VCall) (pc pc' : PPc), s.who[i]? = some m → s.who[j]? = some m' → m.user = m'.user →
    s.inner.calls[i]? = some (c, pc) → s.inner.calls[j]? = some (c', pc') → PPc.active pc → PPc.active pc' → i = j
  map : ∀ d t, s.inner.map.lookup d = some t → t < s.inner.tasks.length
  tsk : ∀ (i : Nat) (c : VCall) (pc : PPc) (t : Nat), s.inner.calls[i]? = some (c, pc) → pcTask pc = some t → t < s.inner.tasks.length

theorem Ctl.init (n : Nat) : Ctl (.init n) := by
  constructor <;> simp [RState.init, PState.init, GoMap.lookup]

/-- A call moves on. -/
theorem Ctl.goto {s s' : RState} (h : Ctl s) {i : Nat} {c : VCall} {pc pc' : PPc} (hi : s.inner.calls[i]? = some (c, pc)) (ha : PPc.active pc)
    (hw : s'.who = s.who) (hc : s'.inner.calls = s.inner.calls.set i (c, pc')) (hlt : s'.certs.length = s'.inner.tasks.length)
    (hle : s.inner.tasks.length ≤ s'.inner.tasks.length)
    (hm : ∀ d t, s'.inner.map.lookup d = some t → t < s'.inner.tasks.length) (ht : ∀ t, pcTask pc' = some t → t < s'.inner.tasks.length) : Ctl s' := by
  have hil := (List.getElem?_eq_some_iff.1 hi).1
  constructor
  · rw [hw, hc, List.length_set]; exact h.len
  · exact hlt
  · intro a b m m' d d' p p' h1 h2 h3 h4 h5 h6 h7
    rw [hw] at h1 h2
    rw [hc, List.getElem?_set] at h4 h5
    have fa : ∃ x q, s.inner.calls[a]? = some (x, q) ∧ PPc.active q := by
      by_cases hx : i = a
      · subst hx; exact ⟨_, _, hi, ha⟩
      · rw [if_neg hx] at h4; exact ⟨_, _, h4, h6⟩
    have fb : ∃ x q, s.inner.calls[b]? = some (x, q) ∧ PPc.active q := by
      by_cases hx : i = b
      · subst hx; exact ⟨_, _, hi, ha⟩
      · rw [if_neg hx] at h5; exact ⟨_, _, h5, h7⟩
    obtain ⟨x, q, e1, e2⟩ := fa
    obtain ⟨y, r, e3, e4⟩ := fb
    exact h.one a b m m' x y q r h1 h2 h3 e1 e3 e2 e4
  · exact hm
  · intro a d p t h1 h2
    rw [hc, List.getElem?_set] at h1
    by_cases hx : i = a
    · subst hx
      rw [if_pos rfl, if_pos hil] at h1
      cases h1
      exact ht t h2
    · rw [if_neg hx] at h1
      exact Nat.lt_of_lt_of_le (h.tsk a d p t h1 h2) hle

theorem lookup_erase_of {d e : Digest} {t : Nat} {m : GoMap Digest Nat} (h : (m.erase d).lookup e = some t) : m.lookup e = some t := by
  by_cases hde : e = d
  · subst hde; rw [GoMap.lookup_erase_self] at h; cases h
  · rwa [GoMap.lookup_erase_ne _ hde] at h

theorem Ctl.step {S : SigScheme} {H : HashFn} {n : Nat} {s s' : RState} (h : Ctl s) (hs : RStep S H n s s') : Ctl s' := by
  cases hs with
  | call c u o k h1 h2 =>
    obtain ⟨a1, a2, a3, a4, a5⟩ := h
    refine ⟨by simp [a1], a2, ?_, a4, ?_⟩
    · intro i j m m' d d' p p' e1 e2 e3 e4 e5 e6 e7
      rcases getElem?_append_one e1 with e1 | ⟨e1, e1'⟩ <;> rcases getElem?_append_one e4 with e4 | ⟨e4, e4'⟩ <;>
        rcases getElem?_append_one e2 with e2 | ⟨e2, e2'⟩ <;> rcases getElem?_append_one e5 with e5 | ⟨e5, e5'⟩
      all_goals first
        | exact a3 i j m m' d d' p p' e1 e2 e3 e4 e5 e6 e7
        | (exfalso; have := (List.getElem?_eq_some_iff.1 e1).1; omega)
        | (exfalso; have := (List.getElem?_eq_some_iff.1 e4).1; omega)
        | (exfalso; have := (List.getElem?_eq_some_iff.1 e2).1; omega)
        | (exfalso; have := (List.getElem?_eq_some_iff.1 e5).1; omega)
        | (exfalso; exact h2 i m d p e1 e4 (by rw [e3, e2']) e6)
        | (exfalso; exact h2 j m' d' p' e2 e5 (by rw [← e3, e1']) e7)
        | omega
    · intro i d p t e1 e2
      rcases getElem?_append_one e1 with e1 | ⟨e1, e1'⟩
      · exact a5 i d p t e1 e2
      · injection e1' with _ e1'; subst e1'; cases e2
  | touch i m h1 h2 => exact ⟨h.len, h.lenT, h.one, h.map, h.tsk⟩
  | noCert i c m h1 h2 h3 h4 => exact h.goto h2 trivial rfl rfl h.lenT (le_refl _) h.map (fun t ht => by cases ht)
  | submit i c cert m h1 h2 h3 h4 h5 => exact h.goto h2 trivial rfl rfl h.lenT (le_refl _) h.map (fun t ht => by cases ht)
  | pickPath i q h1 h2 h3 => exact ⟨h.len, h.lenT, h.one, h.map, h.tsk⟩
  | pickSig t q h1 h2 h3 => exact ⟨h.len, h.lenT, h.one, h.map, h.tsk⟩
  | answer l₁ l₂ i c cert m h1 h2 h3 h4 h5 => exact h.goto h3 trivial rfl rfl h.lenT (le_refl _) h.map (fun t ht => by cases ht)
  | answerTwice i h1 h2 h3 => exact ⟨h.len, h.lenT, h.one, h.map, h.tsk⟩
  | pathOk i c m h1 h2 h3 => exact h.goto h2 trivial rfl rfl h.lenT (le_refl _) h.map (fun t ht => by cases ht)
  | pathBad i c e m h1 h2 h3 => exact h.goto h2 trivial rfl rfl h.lenT (le_refl _) h.map (fun t ht => by cases ht)
  | load i c cert t m h1 h2 h3 h4 h5 =>
    refine h.goto h2 trivial rfl rfl h.lenT (le_refl _) h.map (fun t' ht => ?_)
    simp [pcTask] at ht; subst ht; exact h.map _ _ h4
  | store i c cert m h1 h2 h3 h4 h5 =>
    refine h.goto h2 trivial rfl rfl ?_ ?_ ?_ (fun t' ht => ?_)
    · simp [PState.goto, h.lenT]
    · simp [PState.goto]
    · intro d t hl
      simp only [PState.goto, GoMap.lookup_insert] at hl ⊢
      simp only [List.length_append, List.length_singleton]
      split at hl
      · injection hl with hl; omega
      · have := h.map _ _ hl; omega
    · simp [pcTask] at ht; subst ht; simp [PState.goto]
  | take i c t task m h1 h2 h3 h4 h5 =>
    refine h.goto h2 trivial rfl rfl ?_ ?_ ?_ (fun t' ht => ?_)
    · simp [PState.goto, h.lenT]
    · simp [PState.goto]
    · intro d t hl; simp only [PState.goto, List.length_set] at hl ⊢; exact h.map _ _ hl
    · simp [pcTask] at ht; subst ht; simp [PState.goto]; exact h.tsk i c _ t h2 rfl
  | join i c t task m h1 h2 h3 h4 h5 =>
    refine h.goto h2 trivial rfl rfl h.lenT (le_refl _) h.map (fun t' ht => ?_)
    simp [pcTask] at ht; subst ht; exact h.tsk i c _ t h2 rfl
  | submitSig i c t m h1 h2 h3 h4 =>
    refine h.goto h2 trivial rfl rfl h.lenT (le_refl _) h.map (fun t' ht => ?_)
    simp [pcTask] at ht; subst ht; exact h.tsk i c _ t h2 rfl
  | work l₁ l₂ t task k h1 h2 h3 h4 h5 h6 =>
    refine ⟨h.len, by simp [h.lenT], h.one, ?_, ?_⟩
    · intro d t hl; simp only [List.length_set]; exact h.map _ _ hl
    · intro i c pc t h1 h2; simp only [List.length_set]; exact h.tsk i c pc t h1 h2
  | workCrash t task h1 h2 h3 h4 => exact ⟨h.len, h.lenT, h.one, h.map, h.tsk⟩
  | workTwice t task r h1 h2 h3 h4 => exact ⟨h.len, h.lenT, h.one, h.map, h.tsk⟩
  | accept i c t mine task m h1 h2 h3 h4 h5 => exact h.goto h2 trivial rfl rfl h.lenT (le_refl _) h.map (fun t ht => by cases ht)
  | retry i c cert t task e m k h1 h2 h3 h4 h5 h6 h7 h8 =>
    exact h.goto h2 trivial rfl rfl h.lenT (le_refl _) (fun d t hl => h.map d t (lookup_erase_of hl)) (fun t ht => by cases ht)
  | reject i c cert t mine task e m k h1 h2 h3 h4 h5 h6 h7 h8 =>
    exact h.goto h2 trivial rfl rfl h.lenT (le_refl _) (fun d t hl => h.map d t (lookup_erase_of hl)) (fun t ht => by cases ht)
  | exit h1 h2 h3 => exact ⟨h.len, h.lenT, h.one, h.map, h.tsk⟩
  | clean d h1 => exact ⟨h.len, h.lenT, h.one, fun d t hl => h.map d t (lookup_erase_of hl), h.tsk⟩
  | stop h1 => exact ⟨h.len, h.lenT, h.one, h.map, h.tsk⟩

abbrev Gh := Ghost Gor Loc Obj
abbrev Hd := Holder Gor Obj

def Froz (γ : Gh) (l : Loc) : Prop := ∃ b, γ.st l = .froz b

/-- `h` knows what is needed to work with the task object `t`, which refers to the certificate `k`. -/
def Sees (γ : Gh) (h : Hd) (t k : Nat) (res : Option (Go Unit)) : Prop := γ.K h (.fields t) ∧ γ.K h (.cert k) ∧ (res = none → γ.K h (.err t))

/-- What the ghost state says about the verifier. -/
structure Link (s : RState) (γ : Gh) : Prop where
  objs : ∀ (i : Nat) (m : Meta), s.who[i]? = some m →
    (∀ (j : Nat) (m' : Meta) (c : VCall) (pc : PPc), s.who[j]? = some m' → s.inner.calls[j]? = some (c, pc) → m'.obj = m.obj → away pc = false) →
    γ.st (.obj m.obj) = .excl (.gor (.user m.user))
  objFresh : ∀ o, (∀ (i : Nat) (m : Meta), s.who[i]? = some m → m.obj ≠ o) → γ.st (.obj o) = .fresh
  inChan : ∀ (i : Nat) (m : Meta), .path i ∈ s.inner.chan → s.who[i]? = some m →
    γ.st (.obj m.obj) = .excl (.obj (.pathMsg i (s.att i))) ∧ γ.K (.obj (.pathMsg i (s.att i))) (.cert m.cert)
  inBusy : ∀ (i : Nat) (m : Meta), .path i ∈ s.inner.busy → s.who[i]? = some m →
    γ.st (.obj m.obj) = .excl (.gor (.pathWorker i (s.att i))) ∧ γ.K (.gor (.pathWorker i (s.att i))) (.cert m.cert)
  ans : ∀ (i : Nat) (m : Meta) (c : VCall) (r : Go Unit), s.inner.calls[i]? = some (c, .answered r) → s.who[i]? = some m →
    γ.st (.obj m.obj) = .excl (.obj (.resp i (s.att i)))
  cert : ∀ (i : Nat) (m : Meta), s.who[i]? = some m → Froz γ (.cert m.cert) ∧ γ.K (.gor (.user m.user)) (.cert m.cert)
  certFresh : ∀ k, (∀ (i : Nat) (m : Meta), s.who[i]? = some m → m.cert ≠ k) → γ.st (.cert k) = .fresh
  tasks : ∀ (t : Nat) (z : VTask) (k : Nat), s.inner.tasks[t]? = some z → s.certs[t]? = some k →
    Froz γ (.fields t) ∧ Froz γ (.cert k) ∧ Sees γ (.obj (.entry t)) t k z.result ∧ (z.result = none → γ.st (.err t) = .froz true) ∧
    (∀ r, z.result = some r → Froz γ (.err t) ∧ γ.K (.obj (.ready t)) (.err t))
  tFresh : ∀ t, s.inner.tasks.length ≤ t → γ.st (.fields t) = .fresh ∧ γ.st (.err t) = .fresh
  sees : ∀ (i : Nat) (m : Meta) (c : VCall) (pc : PPc) (t : Nat) (z : VTask) (k : Nat), s.who[i]? = some m → s.inner.calls[i]? = some (c, pc) → pcTask pc = some t →
    s.inner.tasks[t]? = some z → s.certs[t]? = some k → Sees γ (.gor (.user m.user)) t k z.result
  sigC : ∀ (t : Nat) (z : VTask) (k : Nat), .sig t ∈ s.inner.chan → s.inner.tasks[t]? = some z → s.certs[t]? = some k → Sees γ (.obj (.sigMsg t)) t k z.result
  sigB : ∀ (t : Nat) (z : VTask) (k : Nat), .sig t ∈ s.inner.busy → s.inner.tasks[t]? = some z → s.certs[t]? = some k → Sees γ (.gor (.sigWorker t)) t k z.result

theorem Link.init (n : Nat) : Link (.init n) Ghost.init := by
  constructor <;> simp [RState.init, PState.init, Ghost.init]

theorem Sees.mono {γ γ' : Gh} {h : Hd} {t k : Nat} {res : Option (Go Unit)} (hs : Sees γ h t k res) (hK : ∀ h l, γ.K h l → γ'.K h l) : Sees γ' h t k res :=
  ⟨hK _ _ hs.1, hK _ _ hs.2.1, fun e => hK _ _ (hs.2.2 e)⟩

/-- More knowledge, and nothing else. -/
theorem Link.mono {s : RState} {γ γ' : Gh} (h : Link s γ) (hst : ∀ l, γ'.st l = γ.st l) (hK : ∀ h l, γ.K h l → γ'.K h l) : Link s γ' := by
  have hF : ∀ l, Froz γ l → Froz γ' l := fun l ⟨b, hb⟩ => ⟨b, by rw [hst]; exact hb⟩
  obtain ⟨a1, a2, a3, a4, a5, a6, a7, a8, a9, a10, a11, a12⟩ := h
  constructor
  · intro i m h1 h2; rw [hst]; exact a1 i m h1 h2
  · intro o h1; rw [hst]; exact a2 o h1
  · intro i m h1 h2; rw [hst]; exact ⟨(a3 i m h1 h2).1, hK _ _ (a3 i m h1 h2).2⟩
  · intro i m h1 h2; rw [hst]; exact ⟨(a4 i m h1 h2).1, hK _ _ (a4 i m h1 h2).2⟩
  · intro i m c r h1 h2; rw [hst]; exact a5 i m c r h1 h2
  · intro i m h1; exact ⟨hF _ (a6 i m h1).1, hK _ _ (a6 i m h1).2⟩
  · intro k h1; rw [hst]; exact a7 k h1
  · intro t z k h1 h2
    obtain ⟨b1, b2, b3, b4, b5⟩ := a8 t z k h1 h2
    exact ⟨hF _ b1, hF _ b2, b3.mono hK, fun e => by rw [hst]; exact b4 e, fun r e => ⟨hF _ (b5 r e).1, hK _ _ (b5 r e).2⟩⟩
  · intro t h1; rw [hst, hst]; exact a9 t h1
  · intro i m c pc t z k h1 h2 h3 h4 h5; exact (a10 i m c pc t z k h1 h2 h3 h4 h5).mono hK
  · intro t z k h1 h2 h3; exact (a11 t z k h1 h2 h3).mono hK
  · intro t z k h1 h2 h3; exact (a12 t z k h1 h2 h3).mono hK

/-- Reading a frozen location. -/
theorem Link.read {s : RState} {γ : Gh} (h : Link s γ) {l : Loc} (hl : Froz γ l)
    (herr : ∀ (t : Nat) (z : VTask), l = .err t → s.inner.tasks[t]? = some z → z.result ≠ none) : Link s (γ.set l (.froz false)) := by
  obtain ⟨b, hb⟩ := hl
  have hst : ∀ m, (∀ b, γ.st m ≠ .froz b) → (γ.set l (.froz false)).st m = γ.st m := by
    intro m hm
    have : m ≠ l := by rintro rfl; exact hm b hb
    simp [Ghost.set, this]
  have hst' : ∀ m x, γ.st m = x → (∀ b, x ≠ .froz b) → (γ.set l (.froz false)).st m = x := by
    intro m x hx hm; subst hx; exact hst m hm
  have hF : ∀ m, Froz γ m → Froz (γ.set l (.froz false)) m := by
    rintro m ⟨b', hb'⟩
    by_cases hml : m = l
    · exact ⟨false, by simp [Ghost.set, hml]⟩
    · exact ⟨b', by simp [Ghost.set, hml, hb']⟩
  obtain ⟨a1, a2, a3, a4, a5, a6, a7, a8, a9, a10, a11, a12⟩ := h
  constructor
  · intro i m h1 h2; exact hst' _ _ (a1 i m h1 h2) (by simp)
  · intro o h1; exact hst' _ _ (a2 o h1) (by simp)
  · intro i m h1 h2; exact ⟨hst' _ _ (a3 i m h1 h2).1 (by simp), (a3 i m h1 h2).2⟩
  · intro i m h1 h2; exact ⟨hst' _ _ (a4 i m h1 h2).1 (by simp), (a4 i m h1 h2).2⟩
  · intro i m c r h1 h2; exact hst' _ _ (a5 i m c r h1 h2) (by simp)
  · intro i m h1; exact ⟨hF _ (a6 i m h1).1, (a6 i m h1).2⟩
  · intro k h1; exact hst' _ _ (a7 k h1) (by simp)
  · intro t z k h1 h2
    obtain ⟨b1, b2, b3, b4, b5⟩ := a8 t z k h1 h2
    refine ⟨hF _ b1, hF _ b2, b3, fun e => ?_, fun r e => ⟨hF _ (b5 r e).1, (b5 r e).2⟩⟩
    have : Loc.err t ≠ l := fun hx => herr t z hx.symm h1 e
    simp [Ghost.set, this, b4 e]
  · intro t h1; exact ⟨hst' _ _ (a9 t h1).1 (by simp), hst' _ _ (a9 t h1).2 (by simp)⟩
  · exact a10
  · exact a11
  · exact a12

/-- A call that is in progress, and not waiting for the answer to its path check, has its object. -/
theorem Link.home {s : RState} {γ : Gh} (h : Link s γ) (hc : Ctl s) (hsep : Separate s) {i : Nat} {m : Meta} {c : VCall} {pc : PPc} (hm : s.who[i]? = some m)
    (hi : s.inner.calls[i]? = some (c, pc)) (ha : PPc.active pc) (hw : away pc = false) : γ.st (.obj m.obj) = .excl (.gor (.user m.user)) := by
  refine h.objs i m hm ?_
  intro j m' c' pc' h1 h2 h3
  by_contra hx
  have hu : m'.user = m.user := hsep j i m' m h1 hm (.inl h3)
  have hact : PPc.active pc' := by cases pc' <;> simp_all [away, PPc.active]
  have := hc.one j i m' m c' c pc' pc h1 hm hu h2 hi hact ha
  subst this
  rw [hi] at h2; cases h2
  exact hx hw

theorem Link.idle {s : RState} {γ : Gh} (h : Link s γ) (hsep : Separate s) {i : Nat} {m : Meta} (hm : s.who[i]? = some m)
    (hf : s.free m.user) : γ.st (.obj m.obj) = .excl (.gor (.user m.user)) := by
  refine h.objs i m hm ?_
  intro j m' c' pc' h1 h2 h3
  by_contra hx
  have hu : m'.user = m.user := hsep j i m' m h1 hm (.inl h3)
  have hact : PPc.active pc' := by cases pc' <;> simp_all [away, PPc.active]
  exact hf j m' c' pc' h1 h2 hu hact

/-- A call moves on, with its object. -/
theorem Link.goto {s s' : RState} {γ : Gh} (h : Link s γ) (hp : ∀ i, .path i ∈ s.inner.chan ∨ .path i ∈ s.inner.busy → ∃ c, s.inner.calls[i]? = some (c, .queued))
    {i : Nat} {m : Meta} {c : VCall} {pc pc' : PPc} (hm : s.who[i]? = some m)
    (hi : s.inner.calls[i]? = some (c, pc)) (hw : away pc = false) (hw' : away pc' = false) (hwho : s'.who = s.who) (hatt : s'.att = s.att) (hcerts : s'.certs = s.certs)
    (hcalls : s'.inner.calls = s.inner.calls.set i (c, pc')) (hchan : s'.inner.chan = s.inner.chan) (hbusy : s'.inner.busy = s.inner.busy)
    (htasks : ∀ (t : Nat) (z' : VTask), s'.inner.tasks[t]? = some z' → ∃ z, s.inner.tasks[t]? = some z ∧ z'.result = z.result)
    (hlen : s'.inner.tasks.length = s.inner.tasks.length)
    (hsees : ∀ (t : Nat) (z : VTask) (k : Nat), pcTask pc' = some t → s.inner.tasks[t]? = some z → s.certs[t]? = some k → Sees γ (.gor (.user m.user)) t k z.result) : Link s' γ := by
  have hil := (List.getElem?_eq_some_iff.1 hi).1
  have hget : ∀ (j : Nat) (x : VCall) (p : PPc), s'.inner.calls[j]? = some (x, p) → (j = i ∧ p = pc') ∨ (j ≠ i ∧ s.inner.calls[j]? = some (x, p)) := by
    intro j x p hj
    rw [hcalls, List.getElem?_set] at hj
    by_cases hij : i = j
    · subst hij; rw [if_pos rfl, if_pos hil] at hj; cases hj; exact .inl ⟨rfl, rfl⟩
    · rw [if_neg hij] at hj; exact .inr ⟨Ne.symm hij, hj⟩
  have hput : ∀ (j : Nat) (x : VCall) (p : PPc), j ≠ i → s.inner.calls[j]? = some (x, p) → s'.inner.calls[j]? = some (x, p) := by
    intro j x p hji hj
    rw [hcalls, List.getElem?_set_ne (Ne.symm hji)]; exact hj
  obtain ⟨a1, a2, a3, a4, a5, a6, a7, a8, a9, a10, a11, a12⟩ := h
  constructor
  · intro j mj h1 h2
    rw [hwho] at h1 h2
    refine a1 j mj h1 ?_
    intro l ml cl pl h3 h4 h5
    by_cases hl : l = i
    · subst hl; rw [hi] at h4; cases h4; exact hw
    · exact h2 l ml cl pl h3 (hput l cl pl hl h4) h5
  · intro o h1; rw [hwho] at h1; exact a2 o h1
  · intro j mj h1 h2; rw [hwho] at h2; rw [hchan] at h1; rw [hatt]; exact a3 j mj h1 h2
  · intro j mj h1 h2; rw [hwho] at h2; rw [hbusy] at h1; rw [hatt]; exact a4 j mj h1 h2
  · intro j mj cj r h1 h2
    rw [hwho] at h2; rw [hatt]
    rcases hget _ _ _ h1 with ⟨rfl, h3⟩ | ⟨-, h3⟩
    · rw [← h3] at hw'; cases hw'
    · exact a5 j mj cj r h3 h2
  · intro j mj h1; rw [hwho] at h1; exact a6 j mj h1
  · intro k h1; rw [hwho] at h1; exact a7 k h1
  · intro t z' k h1 h2
    rw [hcerts] at h2
    obtain ⟨z, h3, h4⟩ := htasks t z' h1
    rw [h4]
    exact a8 t z k h3 h2
  · intro t h1; rw [hlen] at h1; exact a9 t h1
  · intro j mj cj pj t z' k h1 h2 h3 h4 h5
    rw [hwho] at h1; rw [hcerts] at h5
    obtain ⟨z, h6, h7⟩ := htasks t z' h4
    rw [h7]
    rcases hget _ _ _ h2 with ⟨rfl, h8⟩ | ⟨-, h8⟩
    · rw [hm] at h1; cases h1
      rw [h8] at h3
      exact hsees t z k h3 h6 h5
    · exact a10 j mj cj pj t z k h1 h8 h3 h6 h5
  · intro t z' k h1 h2 h3
    rw [hchan] at h1; rw [hcerts] at h3
    obtain ⟨z, h6, h7⟩ := htasks t z' h2
    rw [h7]; exact a11 t z k h1 h6 h3
  · intro t z' k h1 h2 h3
    rw [hbusy] at h1; rw [hcerts] at h3
    obtain ⟨z, h6, h7⟩ := htasks t z' h2
    rw [h7]; exact a12 t z k h1 h6 h3

/-- The object of call `i` changes hands. -/
theorem Link.move {s s' : RState} {γ γ' : Gh} (h : Link s γ) (hc : Ctl s) (hsep : Separate s)
    (hp : ∀ i, .path i ∈ s.inner.chan ∨ .path i ∈ s.inner.busy → ∃ c, s.inner.calls[i]? = some (c, .queued))
    {i : Nat} {m : Meta} {c : VCall} {pc pc' : PPc} (hm : s.who[i]? = some m) (hi : s.inner.calls[i]? = some (c, pc)) (ha : PPc.active pc)
    (ht' : pcTask pc' = none) (hwho : s'.who = s.who) (hcerts : s'.certs = s.certs)
    (htasks : s'.inner.tasks = s.inner.tasks) (hatt : ∀ j, j ≠ i → s'.att j = s.att j)
    (hcalls : s'.inner.calls = s.inner.calls.set i (c, pc'))
    (hchan : ∀ x, x ≠ .path i → x ∈ s'.inner.chan → x ∈ s.inner.chan) (hbusy : ∀ x, x ≠ .path i → x ∈ s'.inner.busy → x ∈ s.inner.busy)
    (hst : ∀ l, l ≠ .obj m.obj → γ'.st l = γ.st l) (hK : ∀ h l, γ.K h l → γ'.K h l)
    (ho : away pc' = false → γ'.st (.obj m.obj) = .excl (.gor (.user m.user)))
    (hoc : .path i ∈ s'.inner.chan → γ'.st (.obj m.obj) = .excl (.obj (.pathMsg i (s'.att i))) ∧ γ'.K (.obj (.pathMsg i (s'.att i))) (.cert m.cert))
    (hob : .path i ∈ s'.inner.busy → γ'.st (.obj m.obj) = .excl (.gor (.pathWorker i (s'.att i))) ∧ γ'.K (.gor (.pathWorker i (s'.att i))) (.cert m.cert))
    (hoa : ∀ r, pc' = .answered r → γ'.st (.obj m.obj) = .excl (.obj (.resp i (s'.att i)))) : Link s' γ' := by
  have hil := (List.getElem?_eq_some_iff.1 hi).1
  have hget : ∀ (j : Nat) (x : VCall) (p : PPc), s'.inner.calls[j]? = some (x, p) → (j = i ∧ p = pc') ∨ (j ≠ i ∧ s.inner.calls[j]? = some (x, p)) := by
    intro j x p hj
    rw [hcalls, List.getElem?_set] at hj
    by_cases hij : i = j
    · subst hij; rw [if_pos rfl, if_pos hil] at hj; cases hj; exact .inl ⟨rfl, rfl⟩
    · rw [if_neg hij] at hj; exact .inr ⟨Ne.symm hij, hj⟩
  have hput : ∀ (j : Nat) (x : VCall) (p : PPc), j ≠ i → s.inner.calls[j]? = some (x, p) → s'.inner.calls[j]? = some (x, p) := by
    intro j x p hji hj
    rw [hcalls, List.getElem?_set_ne (Ne.symm hji)]; exact hj
  have hself : s'.inner.calls[i]? = some (c, pc') := by rw [hcalls, List.getElem?_set_self hil]
  have hne : ∀ (j : Nat) (mj : Meta) (cj : VCall) (pj : PPc), j ≠ i → s.who[j]? = some mj → s.inner.calls[j]? = some (cj, pj) → away pj = true → mj.obj ≠ m.obj := by
    intro j mj cj pj hji h1 h2 h3 h4
    have hu : mj.user = m.user := hsep j i mj m h1 hm (.inl h4)
    have hact : PPc.active pj := by cases pj <;> simp_all [away, PPc.active]
    exact hji (hc.one j i mj m cj c pj pc h1 hm hu h2 hi hact ha)
  have hF : ∀ l, (∀ o, l ≠ .obj o) → Froz γ l → Froz γ' l := fun l hl ⟨b, hb⟩ => ⟨b, by rw [hst l (hl _)]; exact hb⟩
  obtain ⟨a1, a2, a3, a4, a5, a6, a7, a8, a9, a10, a11, a12⟩ := h
  constructor
  · intro j mj h1 h2
    rw [hwho] at h1 h2
    by_cases hmo : mj.obj = m.obj
    · have hu := hsep j i mj m h1 hm (.inl hmo)
      rw [hmo, hu]
      exact ho (h2 i m c pc' hm hself hmo.symm)
    · rw [hst _ (by simpa using hmo)]
      refine a1 j mj h1 ?_
      intro l ml cl pl h3 h4 h5
      by_cases hl : l = i
      · subst hl; rw [hm] at h3; cases h3; exact absurd h5.symm hmo
      · exact h2 l ml cl pl h3 (hput l cl pl hl h4) h5
  · intro o h1
    rw [hwho] at h1
    rw [hst _ (by simpa using Ne.symm (h1 i m hm))]; exact a2 o h1
  · intro j mj h1 h2
    rw [hwho] at h2
    by_cases hji : j = i
    · subst hji; rw [hm] at h2; cases h2; exact hoc h1
    · have h1' := hchan _ (by simpa using hji) h1
      obtain ⟨cj, hcj⟩ := hp j (.inl h1')
      rw [hatt j hji, hst _ (by simpa using hne j mj cj _ hji h2 hcj rfl)]
      exact ⟨(a3 j mj h1' h2).1, hK _ _ (a3 j mj h1' h2).2⟩
  · intro j mj h1 h2
    rw [hwho] at h2
    by_cases hji : j = i
    · subst hji; rw [hm] at h2; cases h2; exact hob h1
    · have h1' := hbusy _ (by simpa using hji) h1
      obtain ⟨cj, hcj⟩ := hp j (.inr h1')
      rw [hatt j hji, hst _ (by simpa using hne j mj cj _ hji h2 hcj rfl)]
      exact ⟨(a4 j mj h1' h2).1, hK _ _ (a4 j mj h1' h2).2⟩
  · intro j mj cj r h1 h2
    rw [hwho] at h2
    rcases hget _ _ _ h1 with ⟨hji, h3⟩ | ⟨hji, h3⟩
    · subst hji; rw [hm] at h2; cases h2; exact hoa r h3.symm
    · rw [hatt j hji, hst _ (by simpa using hne j mj cj _ hji h2 h3 rfl)]
      exact a5 j mj cj r h3 h2
  · intro j mj h1; rw [hwho] at h1; exact ⟨hF _ (by simp) (a6 j mj h1).1, hK _ _ (a6 j mj h1).2⟩
  · intro k h1; rw [hwho] at h1; rw [hst _ (by simp)]; exact a7 k h1
  · intro t z k h1 h2
    rw [hcerts] at h2; rw [htasks] at h1
    obtain ⟨b1, b2, b3, b4, b5⟩ := a8 t z k h1 h2
    exact ⟨hF _ (by simp) b1, hF _ (by simp) b2, b3.mono hK, fun e => by rw [hst _ (by simp)]; exact b4 e, fun r e => ⟨hF _ (by simp) (b5 r e).1, hK _ _ (b5 r e).2⟩⟩
  · intro t h1; rw [htasks] at h1; rw [hst _ (by simp), hst _ (by simp)]; exact a9 t h1
  · intro j mj cj pj t z k h1 h2 h3 h4 h5
    rw [hwho] at h1; rw [hcerts] at h5; rw [htasks] at h4
    rcases hget _ _ _ h2 with ⟨hji, h8⟩ | ⟨-, h8⟩
    · rw [h8, ht'] at h3; cases h3
    · exact (a10 j mj cj pj t z k h1 h8 h3 h4 h5).mono hK
  · intro t z k h1 h2 h3
    rw [htasks] at h2; rw [hcerts] at h3
    exact (a11 t z k (hchan _ (by simp) h1) h2 h3).mono hK
  · intro t z k h1 h2 h3
    rw [htasks] at h2; rw [hcerts] at h3
    exact (a12 t z k (hbusy _ (by simp) h1) h2 h3).mono hK

/-- Nothing of what `Link` speaks of changes. -/
theorem Link.same {s s' : RState} {γ : Gh} (h : Link s γ) (hwho : s'.who = s.who) (hcerts : s'.certs = s.certs) (hatt : s'.att = s.att)
    (htasks : s'.inner.tasks = s.inner.tasks) (hcalls : s'.inner.calls = s.inner.calls) (hchan : ∀ x ∈ s'.inner.chan, x ∈ s.inner.chan)
    (hbusy : ∀ x ∈ s'.inner.busy, x ∈ s.inner.busy) : Link s' γ := by
  obtain ⟨a1, a2, a3, a4, a5, a6, a7, a8, a9, a10, a11, a12⟩ := h
  constructor
  · rw [hwho, hcalls]; exact a1
  · rw [hwho]; exact a2
  · rw [hwho, hatt]; exact fun i m h1 => a3 i m (hchan _ h1)
  · rw [hwho, hatt]; exact fun i m h1 => a4 i m (hbusy _ h1)
  · rw [hwho, hatt, hcalls]; exact a5
  · rw [hwho]; exact a6
  · rw [hwho]; exact a7
  · rw [htasks, hcerts]; exact a8
  · rw [htasks]; exact a9
  · rw [hwho, htasks, hcerts, hcalls]; exact a10
  · rw [htasks, hcerts]; exact fun t z k h1 => a11 t z k (hchan _ h1)
  · rw [htasks, hcerts]; exact fun t z k h1 => a12 t z k (hbusy _ h1)

/-- A worker takes a signature check. -/
theorem Link.pickSig {s s' : RState} {γ γ' : Gh} (h : Link s γ) {t₀ : Nat} (hin : .sig t₀ ∈ s.inner.chan) (hwho : s'.who = s.who) (hcerts : s'.certs = s.certs) (hatt : s'.att = s.att)
    (htasks : s'.inner.tasks = s.inner.tasks) (hcalls : s'.inner.calls = s.inner.calls) (hchan : ∀ x ∈ s'.inner.chan, x ∈ s.inner.chan)
    (hbusy : ∀ x ∈ s'.inner.busy, x = .sig t₀ ∨ x ∈ s.inner.busy) (hγ : γ' = γ.learn (.sigWorker t₀) (.sigMsg t₀)) : Link s' γ' := by
  have hK : ∀ h l, γ.K h l → γ'.K h l := by subst hγ; exact fun h l hl => .inl hl
  have h0 := h.mono (γ' := γ') (by subst hγ; exact fun l => rfl) hK
  have hw : ∀ (z : VTask) (k : Nat), s.inner.tasks[t₀]? = some z → s.certs[t₀]? = some k → Sees γ' (.gor (.sigWorker t₀)) t₀ k z.result := by
    intro z k h1 h2
    obtain ⟨b1, b2, b3⟩ := h.sigC t₀ z k hin h1 h2
    subst hγ
    exact ⟨.inr ⟨rfl, b1⟩, .inr ⟨rfl, b2⟩, fun e => .inr ⟨rfl, b3 e⟩⟩
  obtain ⟨a1, a2, a3, a4, a5, a6, a7, a8, a9, a10, a11, a12⟩ := h0
  constructor
  · rw [hwho, hcalls]; exact a1
  · rw [hwho]; exact a2
  · rw [hwho, hatt]; exact fun i m h1 => a3 i m (hchan _ h1)
  · rw [hwho, hatt]; exact fun i m h1 => a4 i m ((hbusy _ h1).resolve_left (by simp))
  · rw [hwho, hatt, hcalls]; exact a5
  · rw [hwho]; exact a6
  · rw [hwho]; exact a7
  · rw [htasks, hcerts]; exact a8
  · rw [htasks]; exact a9
  · rw [hwho, htasks, hcerts, hcalls]; exact a10
  · rw [htasks, hcerts]; exact fun t z k h1 => a11 t z k (hchan _ h1)
  · rw [htasks, hcerts]
    intro t z k h1 h2 h3
    rcases hbusy _ h1 with h4 | h4
    · cases h4; exact hw z k h2 h3
    · exact a12 t z k h4 h2 h3

/-- A worker closes `ready`. -/
theorem Link.work {s s' : RState} {γ γ' : Gh} (h : Link s γ) {t₀ : Nat} {z₀ : VTask} {r : Go Unit} (hz : s.inner.tasks[t₀]? = some z₀) (hwho : s'.who = s.who) (hcerts : s'.certs = s.certs) (hatt : s'.att = s.att)
    (htasks : s'.inner.tasks = s.inner.tasks.set t₀ { z₀ with result := some r }) (hcalls : s'.inner.calls = s.inner.calls) (hchan : ∀ x ∈ s'.inner.chan, x ∈ s.inner.chan)
    (hbusy : ∀ x ∈ s'.inner.busy, x ∈ s.inner.busy)
    (hst : ∀ l, l ≠ .err t₀ → γ'.st l = γ.st l) (hK : ∀ h l, l ≠ .err t₀ → γ.K h l → γ'.K h l) (hfr : Froz γ' (.err t₀)) (hrd : γ'.K (.obj (.ready t₀)) (.err t₀)) : Link s' γ' := by
  have hlt := (List.getElem?_eq_some_iff.1 hz).1
  have hg : ∀ (t : Nat) (z : VTask), s'.inner.tasks[t]? = some z → (t = t₀ ∧ z.result = some r) ∨ (t ≠ t₀ ∧ s.inner.tasks[t]? = some z) := by
    intro t z hh
    rw [htasks, List.getElem?_set] at hh
    by_cases ht : t₀ = t
    · subst ht; rw [if_pos rfl, if_pos hlt] at hh; cases hh; exact .inl ⟨rfl, rfl⟩
    · rw [if_neg ht] at hh; exact .inr ⟨Ne.symm ht, hh⟩
  have hF : ∀ l, l ≠ .err t₀ → Froz γ l → Froz γ' l := fun l hl ⟨b, hb⟩ => ⟨b, by rw [hst l hl]; exact hb⟩
  have hS : ∀ (x : Hd) (t : Nat) (z : VTask) (k : Nat), s'.inner.tasks[t]? = some z → (∀ z', s.inner.tasks[t]? = some z' → Sees γ x t k z'.result) → Sees γ' x t k z.result := by
    intro x t z k h1 h2
    rcases hg t z h1 with ⟨h3, h4⟩ | ⟨h3, h4⟩
    · subst h3
      obtain ⟨b1, b2, -⟩ := h2 z₀ hz
      exact ⟨hK _ _ (by simp) b1, hK _ _ (by simp) b2, fun e => by rw [h4] at e; cases e⟩
    · obtain ⟨b1, b2, b3⟩ := h2 z h4
      exact ⟨hK _ _ (by simp) b1, hK _ _ (by simp) b2, fun e => hK _ _ (by simpa using h3) (b3 e)⟩
  obtain ⟨a1, a2, a3, a4, a5, a6, a7, a8, a9, a10, a11, a12⟩ := h
  constructor
  · rw [hwho, hcalls]; intro i m h1 h2; rw [hst _ (by simp)]; exact a1 i m h1 h2
  · rw [hwho]; intro o h1; rw [hst _ (by simp)]; exact a2 o h1
  · rw [hwho, hatt]; intro i m h1 h2; rw [hst _ (by simp)]; have := a3 i m (hchan _ h1) h2; exact ⟨this.1, hK _ _ (by simp) this.2⟩
  · rw [hwho, hatt]; intro i m h1 h2; rw [hst _ (by simp)]; have := a4 i m (hbusy _ h1) h2; exact ⟨this.1, hK _ _ (by simp) this.2⟩
  · rw [hwho, hatt, hcalls]; intro i m c r h1 h2; rw [hst _ (by simp)]; exact a5 i m c r h1 h2
  · rw [hwho]; intro i m h1; exact ⟨hF _ (by simp) (a6 i m h1).1, hK _ _ (by simp) (a6 i m h1).2⟩
  · rw [hwho]; intro k h1; rw [hst _ (by simp)]; exact a7 k h1
  · rw [hcerts]
    intro t z k h1 h2
    rcases hg t z h1 with ⟨h3, h4⟩ | ⟨h3, h4⟩
    · subst h3
      obtain ⟨b1, b2, b3, b4, b5⟩ := a8 t z₀ k hz h2
      refine ⟨hF _ (by simp) b1, hF _ (by simp) b2, hS _ t z k h1 (fun z' hz' => by rw [hz] at hz'; cases hz'; exact b3), (fun e => by rw [h4] at e; cases e), fun r _ => ⟨hfr, hrd⟩⟩
    · obtain ⟨b1, b2, b3, b4, b5⟩ := a8 t z k h4 h2
      refine ⟨hF _ (by simp) b1, hF _ (by simp) b2, hS _ t z k h1 (fun z' hz' => by rw [h4] at hz'; cases hz'; exact b3), fun e => by rw [hst _ (by simpa using h3)]; exact b4 e,
        fun r e => ⟨hF _ (by simpa using h3) (b5 r e).1, hK _ _ (by simpa using h3) (b5 r e).2⟩⟩
  · rw [htasks, List.length_set]
    intro t h1
    rw [hst _ (by simp), hst _ (by simp; omega)]; exact a9 t h1
  · rw [hwho, hcerts, hcalls]
    intro i m c pc t z k h1 h2 h3 h4 h5
    exact hS _ t z k h4 fun z' hz' => a10 i m c pc t z' k h1 h2 h3 hz' h5
  · rw [hcerts]
    intro t z k h1 h2 h3
    exact hS _ t z k h2 fun z' hz' => a11 t z' k (hchan _ h1) hz' h3
  · rw [hcerts]
    intro t z k h1 h2 h3
    exact hS _ t z k h2 fun z' hz' => a12 t z' k (hbusy _ h1) hz' h3

/-- A signature check is sent. -/
theorem Link.addSig {s s' : RState} {γ γ' : Gh} (h : Link s γ) {t₀ : Nat} (hwho : s'.who = s.who) (hcerts : s'.certs = s.certs) (hatt : s'.att = s.att)
    (htasks : s'.inner.tasks = s.inner.tasks) (hcalls : s'.inner.calls = s.inner.calls) (hchan : ∀ x ∈ s'.inner.chan, x = .sig t₀ ∨ x ∈ s.inner.chan)
    (hbusy : ∀ x ∈ s'.inner.busy, x ∈ s.inner.busy) {u : Nat} (hγ : γ' = γ.tell (.user u) (.sigMsg t₀))
    (hs : ∀ (z : VTask) (k : Nat), s.inner.tasks[t₀]? = some z → s.certs[t₀]? = some k → Sees γ (.gor (.user u)) t₀ k z.result) : Link s' γ' := by
  have hK : ∀ h l, γ.K h l → γ'.K h l := by subst hγ; exact fun h l hl => .inl hl
  have h0 := h.mono (γ' := γ') (by subst hγ; exact fun l => rfl) hK
  have hw : ∀ (z : VTask) (k : Nat), s.inner.tasks[t₀]? = some z → s.certs[t₀]? = some k → Sees γ' (.obj (.sigMsg t₀)) t₀ k z.result := by
    intro z k h1 h2
    obtain ⟨b1, b2, b3⟩ := hs z k h1 h2
    subst hγ
    exact ⟨.inr ⟨rfl, b1⟩, .inr ⟨rfl, b2⟩, fun e => .inr ⟨rfl, b3 e⟩⟩
  obtain ⟨a1, a2, a3, a4, a5, a6, a7, a8, a9, a10, a11, a12⟩ := h0
  constructor
  · rw [hwho, hcalls]; exact a1
  · rw [hwho]; exact a2
  · rw [hwho, hatt]; exact fun i m h1 => a3 i m ((hchan _ h1).resolve_left (by simp))
  · rw [hwho, hatt]; exact fun i m h1 => a4 i m (hbusy _ h1)
  · rw [hwho, hatt, hcalls]; exact a5
  · rw [hwho]; exact a6
  · rw [hwho]; exact a7
  · rw [htasks, hcerts]; exact a8
  · rw [htasks]; exact a9
  · rw [hwho, htasks, hcerts, hcalls]; exact a10
  · rw [htasks, hcerts]
    intro t z k h1 h2 h3
    rcases hchan _ h1 with h4 | h4
    · cases h4; exact hw z k h2 h3
    · exact a11 t z k h4 h2 h3
  · rw [htasks, hcerts]; exact fun t z k h1 => a12 t z k (hbusy _ h1)

/-- A new task object. -/
theorem Link.newTask {s s' : RState} {γ γ' : Gh} (h : Link s γ) (hc : Ctl s) (hsig : ∀ t, .sig t ∈ s.inner.chan ∨ .sig t ∈ s.inner.busy → t < s.inner.tasks.length)
    {z₀ : VTask} {k₀ : Nat} (hr : z₀.result = none) (hwho : s'.who = s.who) (hcerts : s'.certs = s.certs ++ [k₀]) (hatt : s'.att = s.att)
    (htasks : s'.inner.tasks = s.inner.tasks ++ [z₀]) (hcalls : s'.inner.calls = s.inner.calls) (hchan : s'.inner.chan = s.inner.chan)
    (hbusy : s'.inner.busy = s.inner.busy)
    (hst : ∀ l, l ≠ .fields s.inner.tasks.length → l ≠ .err s.inner.tasks.length → γ'.st l = γ.st l)
    (hK : ∀ h l, l ≠ .fields s.inner.tasks.length → l ≠ .err s.inner.tasks.length → γ.K h l → γ'.K h l)
    (hfr : Froz γ' (.fields s.inner.tasks.length)) (hfe : γ'.st (.err s.inner.tasks.length) = .froz true) (hk : Froz γ (.cert k₀))
    (hen : Sees γ' (.obj (.entry s.inner.tasks.length)) s.inner.tasks.length k₀ none) : Link s' γ' := by
  have hF : ∀ l, l ≠ .fields s.inner.tasks.length → l ≠ .err s.inner.tasks.length → Froz γ l → Froz γ' l := fun l hl hl' ⟨b, hb⟩ => ⟨b, by rw [hst l hl hl']; exact hb⟩
  have hg : ∀ (t : Nat) (z : VTask) (k : Nat), s'.inner.tasks[t]? = some z → s'.certs[t]? = some k →
      (t = s.inner.tasks.length ∧ z = z₀ ∧ k = k₀) ∨ (t < s.inner.tasks.length ∧ s.inner.tasks[t]? = some z ∧ s.certs[t]? = some k) := by
    intro t z k h1 h2
    rw [htasks] at h1; rw [hcerts] at h2
    rcases getElem?_append_one h1 with h1 | ⟨h1, h1'⟩ <;> rcases getElem?_append_one h2 with h2 | ⟨h2, h2'⟩
    · exact .inr ⟨(List.getElem?_eq_some_iff.1 h1).1, h1, h2⟩
    · have := (List.getElem?_eq_some_iff.1 h1).1; have := hc.lenT; omega
    · have := (List.getElem?_eq_some_iff.1 h2).1; have := hc.lenT; omega
    · exact .inl ⟨h1, h1', h2'⟩
  have hS : ∀ (x : Hd) (t k : Nat) (res : Option (Go Unit)), t < s.inner.tasks.length → Sees γ x t k res → Sees γ' x t k res := by
    rintro x t k res hlt ⟨b1, b2, b3⟩
    exact ⟨hK _ _ (by simp; omega) (by simp) b1, hK _ _ (by simp) (by simp) b2, fun e => hK _ _ (by simp) (by simp; omega) (b3 e)⟩
  obtain ⟨a1, a2, a3, a4, a5, a6, a7, a8, a9, a10, a11, a12⟩ := h
  constructor
  · rw [hwho, hcalls]; intro i m h1 h2; rw [hst _ (by simp) (by simp)]; exact a1 i m h1 h2
  · rw [hwho]; intro o h1; rw [hst _ (by simp) (by simp)]; exact a2 o h1
  · rw [hwho, hatt, hchan]; intro i m h1 h2; rw [hst _ (by simp) (by simp)]; have := a3 i m h1 h2; exact ⟨this.1, hK _ _ (by simp) (by simp) this.2⟩
  · rw [hwho, hatt, hbusy]; intro i m h1 h2; rw [hst _ (by simp) (by simp)]; have := a4 i m h1 h2; exact ⟨this.1, hK _ _ (by simp) (by simp) this.2⟩
  · rw [hwho, hatt, hcalls]; intro i m c r h1 h2; rw [hst _ (by simp) (by simp)]; exact a5 i m c r h1 h2
  · rw [hwho]; intro i m h1; exact ⟨hF _ (by simp) (by simp) (a6 i m h1).1, hK _ _ (by simp) (by simp) (a6 i m h1).2⟩
  · rw [hwho]; intro k h1; rw [hst _ (by simp) (by simp)]; exact a7 k h1
  · intro t z k h1 h2
    rcases hg t z k h1 h2 with ⟨h3, h4, h5⟩ | ⟨h3, h4, h5⟩
    · subst h3 h4 h5
      exact ⟨hfr, hF _ (by simp) (by simp) hk, by rw [hr]; exact hen, fun _ => hfe, fun r e => by rw [hr] at e; cases e⟩
    · obtain ⟨b1, b2, b3, b4, b5⟩ := a8 t z k h4 h5
      have n1 : Loc.fields t ≠ .fields s.inner.tasks.length := by simp; omega
      have n2 : Loc.err t ≠ .err s.inner.tasks.length := by simp; omega
      exact ⟨hF _ n1 (by simp) b1, hF _ (by simp) (by simp) b2, hS _ _ _ _ h3 b3, fun e => by rw [hst _ (by simp) n2]; exact b4 e,
        fun r e => ⟨hF _ (by simp) n2 (b5 r e).1, hK _ _ (by simp) n2 (b5 r e).2⟩⟩
  · intro t h1
    rw [htasks, List.length_append, List.length_singleton] at h1
    rw [hst _ (by simp; omega) (by simp), hst _ (by simp) (by simp; omega)]; exact a9 t (by omega)
  · rw [hwho, hcalls]
    intro i m c pc t z k h1 h2 h3 h4 h5
    have hlt := hc.tsk i c pc t h2 h3
    rcases hg t z k h4 h5 with ⟨h6, -, -⟩ | ⟨h6, h7, h8⟩
    · omega
    · exact hS _ _ _ _ hlt (a10 i m c pc t z k h1 h2 h3 h7 h8)
  · rw [hchan]
    intro t z k h1 h4 h5
    have hlt := hsig t (.inl h1)
    rcases hg t z k h4 h5 with ⟨h6, -, -⟩ | ⟨h6, h7, h8⟩
    · omega
    · exact hS _ _ _ _ hlt (a11 t z k h1 h7 h8)
  · rw [hbusy]
    intro t z k h1 h4 h5
    have hlt := hsig t (.inr h1)
    rcases hg t z k h4 h5 with ⟨h6, -, -⟩ | ⟨h6, h7, h8⟩
    · omega
    · exact hS _ _ _ _ hlt (a12 t z k h1 h7 h8)

/-- A goroutine calls Verify. -/
theorem Link.call {s s' : RState} {γ γ' : Gh} (h : Link s γ) (hc : Ctl s)
    (hp : ∀ i, .path i ∈ s.inner.chan ∨ .path i ∈ s.inner.busy → ∃ c, s.inner.calls[i]? = some (c, .queued))
    {c₀ : VCall} {u o k₀ : Nat} (hf : s.free u) (hsep : Separate s') (hwho : s'.who = s.who ++ [⟨u, o, k₀⟩]) (hcerts : s'.certs = s.certs) (hatt : s'.att = s.att)
    (htasks : s'.inner.tasks = s.inner.tasks) (hcalls : s'.inner.calls = s.inner.calls ++ [(c₀, .start)]) (hchan : s'.inner.chan = s.inner.chan)
    (hbusy : s'.inner.busy = s.inner.busy)
    (hst : ∀ l, l ≠ .obj o → γ.st l ≠ .fresh → γ'.st l = γ.st l) (hfr : ∀ l, l ≠ .obj o → l ≠ .cert k₀ → γ.st l = .fresh → γ'.st l = .fresh)
    (hK : ∀ h l, γ.st l ≠ .fresh → γ.K h l → γ'.K h l) (ho : γ'.st (.obj o) = .excl (.gor (.user u)))
    (hcf : Froz γ' (.cert k₀)) (hcK : γ'.K (.gor (.user u)) (.cert k₀)) : Link s' γ' := by
  have hlast : s'.who[s.who.length]? = some ⟨u, o, k₀⟩ := by rw [hwho]; simp
  have hold : ∀ (j : Nat) (m : Meta), s.who[j]? = some m → s'.who[j]? = some m := by
    intro j m hj
    rw [hwho, List.getElem?_append_left (List.getElem?_eq_some_iff.1 hj).1]; exact hj
  have hoc : ∀ (j : Nat) (x : VCall) (p : PPc), s.inner.calls[j]? = some (x, p) → s'.inner.calls[j]? = some (x, p) := by
    intro j x p hj
    rw [hcalls, List.getElem?_append_left (List.getElem?_eq_some_iff.1 hj).1]; exact hj
  have hne : ∀ (j : Nat) (mj : Meta) (cj : VCall) (pj : PPc), s.who[j]? = some mj → s.inner.calls[j]? = some (cj, pj) → away pj = true → mj.obj ≠ o := by
    intro j mj cj pj h1 h2 h3 h4
    have hu : mj.user = u := hsep j _ mj _ (hold _ _ h1) hlast (.inl h4)
    exact hf j mj cj pj h1 h2 hu (by cases pj <;> simp_all [away, PPc.active])
  have hst' : ∀ l x, l ≠ .obj o → γ.st l = x → x ≠ .fresh → γ'.st l = x := by
    intro l x h1 h2 h3; rw [hst l h1 (by rw [h2]; exact h3)]; exact h2
  have hF : ∀ l, l ≠ .obj o → Froz γ l → Froz γ' l := fun l hl ⟨b, hb⟩ => ⟨b, hst' l _ hl hb (by simp)⟩
  have hKF : ∀ x l, Froz γ l → γ.K x l → γ'.K x l := fun x l ⟨b, hb⟩ hk => hK x l (by rw [hb]; simp) hk
  have hw : ∀ (j : Nat) (m : Meta), s'.who[j]? = some m → (s.who[j]? = some m) ∨ (j = s.who.length ∧ m = ⟨u, o, k₀⟩) := by
    intro j m hj; rw [hwho] at hj; exact getElem?_append_one hj
  have hlen := hc.len
  have hS : ∀ (x : Hd) (t : Nat) (z : VTask) (k : Nat), s.inner.tasks[t]? = some z → s.certs[t]? = some k → Sees γ x t k z.result → Sees γ' x t k z.result := by
    rintro x t z k h1 h2 ⟨b1, b2, b3⟩
    obtain ⟨d1, d2, d3, d4, d5⟩ := h.tasks t z k h1 h2
    exact ⟨hKF _ _ d1 b1, hKF _ _ d2 b2, fun e => hKF _ _ ⟨_, d4 e⟩ (b3 e)⟩
  have h8 := h.tasks
  obtain ⟨a1, a2, a3, a4, a5, a6, a7, a8, a9, a10, a11, a12⟩ := h
  constructor
  · intro j m h1 h2
    by_cases hmo : m.obj = o
    · have hu : m.user = u := hsep j _ m _ h1 hlast (.inl hmo)
      rw [hmo, hu]; exact ho
    · rcases hw j m h1 with h3 | ⟨-, h3⟩
      · refine hst' _ _ (by simpa using hmo) (a1 j m h3 fun l ml cl pl e1 e2 e3 => h2 l ml cl pl (hold _ _ e1) (hoc _ _ _ e2) e3) (by simp)
      · subst h3; exact absurd rfl hmo
  · intro o' h1
    have : o' ≠ o := Ne.symm (h1 _ _ hlast)
    exact hfr _ (by simpa using this) (by simp) (a2 o' fun i m e => h1 i m (hold _ _ e))
  · intro j m h1 h2
    rw [hchan] at h1; rw [hatt]
    obtain ⟨cj, hcj⟩ := hp j (.inl h1)
    have hjl := (List.getElem?_eq_some_iff.1 hcj).1
    have h3 := (hw j m h2).resolve_right (by omega)
    obtain ⟨b1, b2⟩ := a3 j m h1 h3
    exact ⟨hst' _ _ (by simpa using hne j m cj _ h3 hcj rfl) b1 (by simp), hKF _ _ (a6 j m h3).1 b2⟩
  · intro j m h1 h2
    rw [hbusy] at h1; rw [hatt]
    obtain ⟨cj, hcj⟩ := hp j (.inr h1)
    have hjl := (List.getElem?_eq_some_iff.1 hcj).1
    have h3 := (hw j m h2).resolve_right (by omega)
    obtain ⟨b1, b2⟩ := a4 j m h1 h3
    exact ⟨hst' _ _ (by simpa using hne j m cj _ h3 hcj rfl) b1 (by simp), hKF _ _ (a6 j m h3).1 b2⟩
  · intro j m c r h1 h2
    rw [hatt]
    rw [hcalls] at h1
    rcases getElem?_append_one h1 with h1 | ⟨-, h1⟩
    · have hjl := (List.getElem?_eq_some_iff.1 h1).1
      have h3 := (hw j m h2).resolve_right (by omega)
      exact hst' _ _ (by simpa using hne j m c _ h3 h1 rfl) (a5 j m c r h1 h3) (by simp)
    · cases h1
  · intro j m h1
    rcases hw j m h1 with h3 | ⟨-, h3⟩
    · exact ⟨hF _ (by simp) (a6 j m h3).1, hKF _ _ (a6 j m h3).1 (a6 j m h3).2⟩
    · subst h3; exact ⟨hcf, hcK⟩
  · intro k h1
    exact hfr _ (by simp) (by simpa using Ne.symm (h1 _ _ hlast)) (a7 k fun i m e => h1 i m (hold _ _ e))
  · intro t z k h1 h2
    rw [htasks] at h1; rw [hcerts] at h2
    obtain ⟨b1, b2, b3, b4, b5⟩ := a8 t z k h1 h2
    exact ⟨hF _ (by simp) b1, hF _ (by simp) b2, hS _ _ _ _ h1 h2 b3, fun e => hst' _ _ (by simp) (b4 e) (by simp), fun r e => ⟨hF _ (by simp) (b5 r e).1, hKF _ _ (b5 r e).1 (b5 r e).2⟩⟩
  · intro t h1
    rw [htasks] at h1
    exact ⟨hfr _ (by simp) (by simp) (a9 t h1).1, hfr _ (by simp) (by simp) (a9 t h1).2⟩
  · intro j m c pc t z k h1 h2 h3 h4 h5
    rw [htasks] at h4; rw [hcerts] at h5; rw [hcalls] at h2
    rcases getElem?_append_one h2 with h2 | ⟨-, h2⟩
    · have hjl := (List.getElem?_eq_some_iff.1 h2).1
      have h6 := (hw j m h1).resolve_right (by omega)
      exact hS _ _ _ _ h4 h5 (a10 j m c pc t z k h6 h2 h3 h4 h5)
    · cases h2; cases h3
  · rw [htasks, hcerts, hchan]; intro t z k h1 h2 h3; exact hS _ _ _ _ h2 h3 (a11 t z k h1 h2 h3)
  · rw [htasks, hcerts, hbusy]; intro t z k h1 h2 h3; exact hS _ _ _ _ h2 h3 (a12 t z k h1 h2 h3)

end Resmix.Rrpc.VerifierRace
