import Verif.Proofs.Ibe
set_option autoImplicit false
namespace Resmix.Tibe
variable {B : Bls}

def PubPc.rank : PubPc B → Nat
  | .start => 6 | .getOnce => 5 | .enterDo => 4 | .running => 3 | .stored => 2 | .reload => 1 | .done _ => 0

/-- Total remaining work. -/
def PubState.work (s : PubState B) : Nat := (s.procs.map fun p => p.2.rank).sum

structure PubInv (e : ExponentPoly B) (s : PubState B) : Prop where
  results : ∀ i v, s.results.lookup i = some v → e.getPublicShare i = .ok v
  nz : ∀ p ∈ s.procs, p.1 = 0 → p.2 = .start ∨ p.2 = .done (goIndex e.coefs 0)
  fin : ∀ p ∈ s.procs, ∀ r, p.2 = .done r → r = e.getPublicShare p.1
  doneRes : ∀ i, s.onces.lookup (dec i) = some .done → ∃ v, s.results.lookup i = some v
  storedRes : ∀ p ∈ s.procs, p.2 = .stored ∨ p.2 = .reload → ∃ v, s.results.lookup p.1 = some v
  hasOnce : ∀ p ∈ s.procs, p.2 = .enterDo → s.onces.lookup (dec p.1) ≠ none
  busy : ∀ i, s.onces.lookup (dec i) = some .busy → ∃ p ∈ s.procs, p.1 = i ∧ (p.2 = .running ∨ p.2 = .stored)

theorem mem_set_cases {α : Type} {l : List α} {k : Nat} {x y : α} (h : y ∈ l.set k x) : y = x ∨ y ∈ l := by
  rcases List.mem_or_eq_of_mem_set h with h | h
  · exact Or.inr h
  · exact Or.inl h

theorem mem_set_other {α : Type} {l : List α} {k : Nat} {x y old : α} (hk : l[k]? = some old) (hy : y ∈ l) (hne : y ≠ old) :
    y ∈ l.set k x := by
  obtain ⟨j, hj, rfl⟩ := List.getElem_of_mem hy
  have hjk : k ≠ j := by
    rintro rfl
    rw [List.getElem?_eq_getElem hj] at hk
    exact hne (Option.some.inj hk)
  have : (l.set k x)[j]'(by simpa using hj) = l[j] := by rw [List.getElem_set_ne hjk]
  exact this ▸ List.getElem_mem _

theorem mem_set_self' {α : Type} {l : List α} {k : Nat} {x old : α} (hk : l[k]? = some old) : x ∈ l.set k x := by
  obtain ⟨hj, _⟩ := List.getElem?_eq_some_iff.1 hk
  exact List.mem_iff_getElem.2 ⟨k, by simpa using hj, by simp⟩

theorem pub_inv_step {e : ExponentPoly B} (he : e.coefs ≠ []) {s s' : PubState B} (hi : PubInv e s) (h : PubStep e s s') :
    PubInv e s' := by
  have hcomp : ∀ i, ∃ v, e.compute i = .ok v := by
    intro i
    obtain ⟨cs⟩ := e
    cases cs with
    | nil => exact absurd rfl he
    | cons a as => exact ⟨_, rfl⟩
  cases h with
  | call i =>
    refine ⟨hi.results, ?_, ?_, hi.doneRes, ?_, ?_, ?_⟩
    · intro p hp h0
      rcases List.mem_append.1 hp with hp | hp
      · exact hi.nz p hp h0
      · rw [List.mem_singleton.1 hp]; exact Or.inl rfl
    · intro p hp r hr
      rcases List.mem_append.1 hp with hp | hp
      · exact hi.fin p hp r hr
      · rw [List.mem_singleton.1 hp] at hr; cases hr
    · intro p hp hr
      rcases List.mem_append.1 hp with hp | hp
      · exact hi.storedRes p hp hr
      · rw [List.mem_singleton.1 hp] at hr; rcases hr with hr | hr <;> cases hr
    · intro p hp hr
      rcases List.mem_append.1 hp with hp | hp
      · exact hi.hasOnce p hp hr
      · rw [List.mem_singleton.1 hp] at hr; cases hr
    · intro j hj
      obtain ⟨p, hp, h1, h2⟩ := hi.busy j hj
      exact ⟨p, List.mem_append_left _ hp, h1, h2⟩
  | zero k h =>
    refine ⟨hi.results, ?_, ?_, hi.doneRes, ?_, ?_, ?_⟩
    · intro p hp h0
      rcases mem_set_cases hp with rfl | hp
      · exact Or.inr rfl
      · exact hi.nz p hp h0
    · intro p hp r hr
      rcases mem_set_cases hp with rfl | hp
      · simp only [PubPc.done.injEq] at hr; simp [ExponentPoly.getPublicShare, ← hr]
      · exact hi.fin p hp r hr
    · intro p hp hr
      rcases mem_set_cases hp with rfl | hp
      · rcases hr with hr | hr <;> cases hr
      · exact hi.storedRes p hp hr
    · intro p hp hr
      rcases mem_set_cases hp with rfl | hp
      · cases hr
      · exact hi.hasOnce p hp hr
    · intro j hj
      obtain ⟨p, hp, h1, h2⟩ := hi.busy j hj
      exact ⟨p, mem_set_other h hp (by rintro rfl; rcases h2 with h2 | h2 <;> cases h2), h1, h2⟩
  | hit k i v h h0 hv =>
    refine ⟨hi.results, ?_, ?_, hi.doneRes, ?_, ?_, ?_⟩
    · intro p hp hz
      rcases mem_set_cases hp with rfl | hp
      · exact absurd hz h0
      · exact hi.nz p hp hz
    · intro p hp r hr
      rcases mem_set_cases hp with rfl | hp
      · simp only [PubPc.done.injEq] at hr; rw [← hr]; exact (hi.results i v hv).symm
      · exact hi.fin p hp r hr
    · intro p hp hr
      rcases mem_set_cases hp with rfl | hp
      · rcases hr with hr | hr <;> cases hr
      · exact hi.storedRes p hp hr
    · intro p hp hr
      rcases mem_set_cases hp with rfl | hp
      · cases hr
      · exact hi.hasOnce p hp hr
    · intro j hj
      obtain ⟨p, hp, h1, h2⟩ := hi.busy j hj
      exact ⟨p, mem_set_other h hp (by rintro rfl; rcases h2 with h2 | h2 <;> cases h2), h1, h2⟩
  | miss k i h h0 hv =>
    refine ⟨hi.results, ?_, ?_, hi.doneRes, ?_, ?_, ?_⟩
    · intro p hp hz
      rcases mem_set_cases hp with rfl | hp
      · exact absurd hz h0
      · exact hi.nz p hp hz
    · intro p hp r hr
      rcases mem_set_cases hp with rfl | hp
      · cases hr
      · exact hi.fin p hp r hr
    · intro p hp hr
      rcases mem_set_cases hp with rfl | hp
      · rcases hr with hr | hr <;> cases hr
      · exact hi.storedRes p hp hr
    · intro p hp hr
      rcases mem_set_cases hp with rfl | hp
      · cases hr
      · exact hi.hasOnce p hp hr
    · intro j hj
      obtain ⟨p, hp, h1, h2⟩ := hi.busy j hj
      exact ⟨p, mem_set_other h hp (by rintro rfl; rcases h2 with h2 | h2 <;> cases h2), h1, h2⟩
  | once k i h =>
    have hm := List.mem_of_getElem? h
    have hz : i ≠ 0 := by
      intro h0
      rcases hi.nz _ hm h0 with h | h <;> cases h
    have hlk : ∀ j, (if s.onces.lookup (dec i) = none then s.onces.insert (dec i) .fresh else s.onces).lookup (dec j) =
        if j = i ∧ s.onces.lookup (dec i) = none then some .fresh else s.onces.lookup (dec j) := by
      intro j
      by_cases hn : s.onces.lookup (dec i) = none
      · rw [if_pos hn, GoMap.lookup_insert]
        by_cases hj : j = i
        · subst hj; simp [hn]
        · rw [if_neg (fun h => hj (dec_inj h)), if_neg (fun h => hj h.1)]
      · rw [if_neg hn, if_neg (fun h => hn h.2)]
    refine ⟨hi.results, ?_, ?_, ?_, ?_, ?_, ?_⟩
    · intro p hp h0
      rcases mem_set_cases hp with rfl | hp
      · exact absurd h0 hz
      · exact hi.nz p hp h0
    · intro p hp r hr
      rcases mem_set_cases hp with rfl | hp
      · cases hr
      · exact hi.fin p hp r hr
    · intro j hj
      simp only [hlk] at hj
      split at hj
      · cases hj
      · exact hi.doneRes j hj
    · intro p hp hr
      rcases mem_set_cases hp with rfl | hp
      · rcases hr with hr | hr <;> cases hr
      · exact hi.storedRes p hp hr
    · intro p hp hr
      simp only [hlk]
      rcases mem_set_cases hp with rfl | hp
      · simp only [true_and]; split
        · simp
        · next hn => exact hn
      · split
        · simp
        · exact hi.hasOnce p hp hr
    · intro j hj
      simp only [hlk] at hj
      split at hj
      · cases hj
      · obtain ⟨p, hp, h1, h2⟩ := hi.busy j hj
        exact ⟨p, mem_set_other h hp (by rintro rfl; rcases h2 with h2 | h2 <;> cases h2), h1, h2⟩
  | doFirst k i h ho =>
    have hm := List.mem_of_getElem? h
    have hz : i ≠ 0 := by
      intro h0
      rcases hi.nz _ hm h0 with h | h <;> cases h
    have hlk : ∀ j, (s.onces.insert (dec i) .busy).lookup (dec j) = if j = i then some .busy else s.onces.lookup (dec j) := by
      intro j
      rw [GoMap.lookup_insert]
      by_cases hj : j = i
      · subst hj; simp
      · rw [if_neg (fun h => hj (dec_inj h)), if_neg hj]
    refine ⟨hi.results, ?_, ?_, ?_, ?_, ?_, ?_⟩
    · intro p hp h0
      rcases mem_set_cases hp with rfl | hp
      · exact absurd h0 hz
      · exact hi.nz p hp h0
    · intro p hp r hr
      rcases mem_set_cases hp with rfl | hp
      · cases hr
      · exact hi.fin p hp r hr
    · intro j hj
      simp only [hlk] at hj
      split at hj
      · cases hj
      · exact hi.doneRes j hj
    · intro p hp hr
      rcases mem_set_cases hp with rfl | hp
      · rcases hr with hr | hr <;> cases hr
      · exact hi.storedRes p hp hr
    · intro p hp hr
      simp only [hlk]
      rcases mem_set_cases hp with rfl | hp
      · cases hr
      · split
        · simp
        · exact hi.hasOnce p hp hr
    · intro j hj
      simp only [hlk] at hj
      split at hj
      · next hji => exact ⟨_, mem_set_self' h, hji.symm, Or.inl rfl⟩
      · obtain ⟨p, hp, h1, h2⟩ := hi.busy j hj
        exact ⟨p, mem_set_other h hp (by rintro rfl; rcases h2 with h2 | h2 <;> cases h2), h1, h2⟩
  | doDone k i h ho =>
    have hm := List.mem_of_getElem? h
    have hz : i ≠ 0 := by
      intro h0
      rcases hi.nz _ hm h0 with h | h <;> cases h
    refine ⟨hi.results, ?_, ?_, hi.doneRes, ?_, ?_, ?_⟩
    · intro p hp h0
      rcases mem_set_cases hp with rfl | hp
      · exact absurd h0 hz
      · exact hi.nz p hp h0
    · intro p hp r hr
      rcases mem_set_cases hp with rfl | hp
      · cases hr
      · exact hi.fin p hp r hr
    · intro p hp hr
      rcases mem_set_cases hp with rfl | hp
      · exact hi.doneRes i ho
      · exact hi.storedRes p hp hr
    · intro p hp hr
      rcases mem_set_cases hp with rfl | hp
      · cases hr
      · exact hi.hasOnce p hp hr
    · intro j hj
      obtain ⟨p, hp, h1, h2⟩ := hi.busy j hj
      exact ⟨p, mem_set_other h hp (by rintro rfl; rcases h2 with h2 | h2 <;> cases h2), h1, h2⟩
  | run k i v h hv =>
    have hm := List.mem_of_getElem? h
    have hz : i ≠ 0 := by
      intro h0
      rcases hi.nz _ hm h0 with h | h <;> cases h
    have hkeep : ∀ j, (∃ w, s.results.lookup j = some w) → ∃ w, (s.results.insert i v).lookup j = some w := by
      rintro j ⟨w, hw⟩
      rw [GoMap.lookup_insert]
      split
      · exact ⟨_, rfl⟩
      · exact ⟨w, hw⟩
    refine ⟨?_, ?_, ?_, ?_, ?_, ?_, ?_⟩
    · intro j w hw
      rw [GoMap.lookup_insert] at hw
      split at hw
      · next hj =>
        injection hw with hw; subst hw; subst hj
        rw [ExponentPoly.getPublicShare, if_neg hz, hv]
      · exact hi.results j w hw
    · intro p hp h0
      rcases mem_set_cases hp with rfl | hp
      · exact absurd h0 hz
      · exact hi.nz p hp h0
    · intro p hp r hr
      rcases mem_set_cases hp with rfl | hp
      · cases hr
      · exact hi.fin p hp r hr
    · intro j hj; exact hkeep j (hi.doneRes j hj)
    · intro p hp hr
      rcases mem_set_cases hp with rfl | hp
      · exact ⟨v, by simp⟩
      · exact hkeep _ (hi.storedRes p hp hr)
    · intro p hp hr
      rcases mem_set_cases hp with rfl | hp
      · cases hr
      · exact hi.hasOnce p hp hr
    · intro j hj
      obtain ⟨p, hp, h1, h2⟩ := hi.busy j hj
      by_cases hpp : p = (i, .running)
      · subst hpp
        exact ⟨_, mem_set_self' h, h1, Or.inr rfl⟩
      · exact ⟨p, mem_set_other h hp hpp, h1, h2⟩
  | runPanic k i h hv =>
    obtain ⟨w, hw⟩ := hcomp i
    rw [hw] at hv; cases hv
  | finish k i h =>
    have hm := List.mem_of_getElem? h
    have hz : i ≠ 0 := by
      intro h0
      rcases hi.nz _ hm h0 with h | h <;> cases h
    have hst := hi.storedRes _ hm (Or.inl rfl)
    have hlk : ∀ j, (s.onces.insert (dec i) .done).lookup (dec j) = if j = i then some .done else s.onces.lookup (dec j) := by
      intro j
      rw [GoMap.lookup_insert]
      by_cases hj : j = i
      · subst hj; simp
      · rw [if_neg (fun h => hj (dec_inj h)), if_neg hj]
    refine ⟨hi.results, ?_, ?_, ?_, ?_, ?_, ?_⟩
    · intro p hp h0
      rcases mem_set_cases hp with rfl | hp
      · exact absurd h0 hz
      · exact hi.nz p hp h0
    · intro p hp r hr
      rcases mem_set_cases hp with rfl | hp
      · cases hr
      · exact hi.fin p hp r hr
    · intro j hj
      simp only [hlk] at hj
      split at hj
      · next hji => subst hji; exact hst
      · exact hi.doneRes j hj
    · intro p hp hr
      rcases mem_set_cases hp with rfl | hp
      · exact hst
      · exact hi.storedRes p hp hr
    · intro p hp hr
      simp only [hlk]
      rcases mem_set_cases hp with rfl | hp
      · cases hr
      · split
        · simp
        · exact hi.hasOnce p hp hr
    · intro j hj
      simp only [hlk] at hj
      split at hj
      · cases hj
      · next hji =>
        obtain ⟨p, hp, h1, h2⟩ := hi.busy j hj
        exact ⟨p, mem_set_other h hp (by rintro rfl; exact hji h1.symm), h1, h2⟩
  | load k i h =>
    have hm := List.mem_of_getElem? h
    have hz : i ≠ 0 := by
      intro h0
      rcases hi.nz _ hm h0 with h | h <;> cases h
    obtain ⟨v, hv⟩ := hi.storedRes _ hm (Or.inr rfl)
    simp only at hv
    refine ⟨hi.results, ?_, ?_, hi.doneRes, ?_, ?_, ?_⟩
    · intro p hp h0
      rcases mem_set_cases hp with rfl | hp
      · exact absurd h0 hz
      · exact hi.nz p hp h0
    · intro p hp r hr
      rcases mem_set_cases hp with rfl | hp
      · simp only [hv, PubPc.done.injEq] at hr; rw [← hr]; exact (hi.results i v hv).symm
      · exact hi.fin p hp r hr
    · intro p hp hr
      rcases mem_set_cases hp with rfl | hp
      · rcases hr with hr | hr <;> cases hr
      · exact hi.storedRes p hp hr
    · intro p hp hr
      rcases mem_set_cases hp with rfl | hp
      · cases hr
      · exact hi.hasOnce p hp hr
    · intro j hj
      obtain ⟨p, hp, h1, h2⟩ := hi.busy j hj
      exact ⟨p, mem_set_other h hp (by rintro rfl; rcases h2 with h2 | h2 <;> cases h2), h1, h2⟩

theorem pub_inv {e : ExponentPoly B} (he : e.coefs ≠ []) {s : PubState B} (h : PubReach e s) : PubInv e s := by
  induction h with
  | init => exact ⟨by simp, by simp, by simp, by simp, by simp, by simp, by simp⟩
  | step _ hs ih => exact pub_inv_step he ih hs

theorem sum_set_lt {α : Type} (l : List α) (f : α → Nat) (k : Nat) (x old : α) (hk : l[k]? = some old) (hlt : f x < f old) :
    ((l.set k x).map f).sum < (l.map f).sum := by
  induction l generalizing k with
  | nil => simp at hk
  | cons a l ih =>
    cases k with
    | zero => simp at hk; subst hk; simpa using hlt
    | succ k => simpa using ih k (by simpa using hk)

theorem pub_work {e : ExponentPoly B} {s s' : PubState B} (h : PubStep e s s') (hl : s'.procs.length = s.procs.length) :
    s'.work < s.work := by
  cases h with
  | call i => simp at hl
  | zero k h => exact sum_set_lt _ _ _ _ _ h (by simp [PubPc.rank])
  | hit k i v h h0 hv => exact sum_set_lt _ _ _ _ _ h (by simp [PubPc.rank])
  | miss k i h h0 hv => exact sum_set_lt _ _ _ _ _ h (by simp [PubPc.rank])
  | once k i h => exact sum_set_lt _ _ _ _ _ h (by simp [PubPc.rank])
  | doFirst k i h ho => exact sum_set_lt _ _ _ _ _ h (by simp [PubPc.rank])
  | doDone k i h ho => exact sum_set_lt _ _ _ _ _ h (by simp [PubPc.rank])
  | run k i v h hv => exact sum_set_lt _ _ _ _ _ h (by simp [PubPc.rank])
  | runPanic k i h hv => exact sum_set_lt _ _ _ _ _ h (by simp [PubPc.rank])
  | finish k i h => exact sum_set_lt _ _ _ _ _ h (by simp [PubPc.rank])
  | load k i h => exact sum_set_lt _ _ _ _ _ h (by simp [PubPc.rank])

theorem pub_progress {e : ExponentPoly B} (he : e.coefs ≠ []) {s : PubState B} (hr : PubReach e s) {p : Nat × PubPc B}
    (hp : p ∈ s.procs) (hnd : ∀ r, p.2 ≠ .done r) : ∃ s', PubStep e s s' ∧ s'.procs.length = s.procs.length := by
  have hi := pub_inv he hr
  have hcomp : ∀ i, ∃ v, e.compute i = .ok v := by
    intro i
    obtain ⟨cs⟩ := e
    cases cs with
    | nil => exact absurd rfl he
    | cons a as => exact ⟨_, rfl⟩
  have run : ∀ p ∈ s.procs, p.2 = .running ∨ p.2 = .stored → ∃ s', PubStep e s s' ∧ s'.procs.length = s.procs.length := by
    rintro ⟨i, pc⟩ hp hpc
    obtain ⟨k, hk⟩ := List.getElem?_of_mem hp
    rcases hpc with hpc | hpc <;> simp only at hpc <;> subst hpc
    · obtain ⟨v, hv⟩ := hcomp i
      exact ⟨_, .run s k i v hk hv, by simp⟩
    · exact ⟨_, .finish s k i hk, by simp⟩
  obtain ⟨i, pc⟩ := p
  obtain ⟨k, hk⟩ := List.getElem?_of_mem hp
  cases pc with
  | start =>
    by_cases h0 : i = 0
    · subst h0; exact ⟨_, .zero s k hk, by simp⟩
    · cases hv : s.results.lookup i with
      | none => exact ⟨_, .miss s k i hk h0 hv, by simp⟩
      | some v => exact ⟨_, .hit s k i v hk h0 hv, by simp⟩
  | getOnce => exact ⟨_, .once s k i hk, by simp⟩
  | enterDo =>
    cases ho : s.onces.lookup (dec i) with
    | none => exact absurd ho (hi.hasOnce _ hp rfl)
    | some o =>
      cases o with
      | fresh => exact ⟨_, .doFirst s k i hk ho, by simp⟩
      | busy => obtain ⟨q, hq, _, hq2⟩ := hi.busy i ho; exact run q hq hq2
      | done => exact ⟨_, .doDone s k i hk ho, by simp⟩
  | running => exact run _ hp (Or.inl rfl)
  | stored => exact run _ hp (Or.inr rfl)
  | reload => exact ⟨_, .load s k i hk, by simp⟩
  | done r => exact absurd rfl (hnd r)

end Resmix.Tibe
