import Verif.Proofs.Own
set_option autoImplicit false
/- Ownership (Proofs/Own), for several locations at once. -/
namespace Resmix.Race
variable {G L S : Type} [DecidableEq L] {γ : Ghost G L S} {tr : List (Event G L S)}

/-- All of `ls` change to `x`. -/
def Ghost.setAll (γ : Ghost G L S) (ls : List L) (x : LSt G S) : Ghost G L S := { γ with st := fun m => if m ∈ ls then x else γ.st m }

/-- The owner of all of `ls` releases `s` and hands them over. -/
theorem Sound.giveAll (h : Sound γ tr) {g : G} (s : S) {ls : List L} (hl : ∀ l ∈ ls, γ.st l = .excl (.gor g)) :
    Sound ((γ.tell g s).setAll ls (.excl (.obj s))) (tr ++ [⟨g, .release s⟩]) := by
  refine h.sync_aux (.inl ⟨s, rfl⟩) ?_ ?_ ?_ ?_
  · intro m hm
    by_cases hml : m ∈ ls
    · simp [Ghost.setAll, hml] at hm
    · simpa [Ghost.setAll, Ghost.tell, hml] using hm
  · intro m o hm
    by_cases hml : m ∈ ls
    · simp only [Ghost.setAll, if_pos hml, LSt.excl.injEq] at hm
      subst hm
      exact ⟨_, hl m hml, fun k hk => Known.release hk rfl⟩
    · simp only [Ghost.setAll, Ghost.tell, if_neg hml] at hm
      exact ⟨o, hm, fun k hk => hk.mono _⟩
  · intro m b hm
    by_cases hml : m ∈ ls
    · simp [Ghost.setAll, hml] at hm
    · simpa [Ghost.setAll, Ghost.tell, hml] using hm
  · intro o l hK
    rcases hK with hK | ⟨rfl, hK⟩
    · exact ⟨o, hK, fun k hk => hk.mono _⟩
    · exact ⟨_, hK, fun k hk => Known.release hk rfl⟩

/-- `g` acquires `s`, with which all of `ls` are in transit. -/
theorem Sound.getAll (h : Sound γ tr) (g : G) {s : S} {ls : List L} (hl : ∀ l ∈ ls, γ.st l = .excl (.obj s)) :
    Sound ((γ.learn g s).setAll ls (.excl (.gor g))) (tr ++ [⟨g, .acquire s⟩]) := by
  refine h.sync_aux (.inr ⟨s, rfl⟩) ?_ ?_ ?_ ?_
  · intro m hm
    by_cases hml : m ∈ ls
    · simp [Ghost.setAll, hml] at hm
    · simpa [Ghost.setAll, Ghost.learn, hml] using hm
  · intro m o hm
    by_cases hml : m ∈ ls
    · simp only [Ghost.setAll, if_pos hml, LSt.excl.injEq] at hm
      subst hm
      exact ⟨_, hl m hml, fun k hk => Rel.acquire hk rfl⟩
    · simp only [Ghost.setAll, Ghost.learn, if_neg hml] at hm
      exact ⟨o, hm, fun k hk => hk.mono _⟩
  · intro m b hm
    by_cases hml : m ∈ ls
    · simp [Ghost.setAll, hml] at hm
    · simpa [Ghost.setAll, Ghost.learn, hml] using hm
  · intro o l hK
    rcases hK with hK | ⟨rfl, hK⟩
    · exact ⟨o, hK, fun k hk => hk.mono _⟩
    · exact ⟨_, hK, fun k hk => Rel.acquire hk rfl⟩

/-- A goroutine accesses locations it owns. -/
theorem Sound.ownerAll (h : Sound γ tr) {g : G} : ∀ (es : List (Event G L S)), (∀ e ∈ es, e.g = g ∧ ∃ l, γ.st l = .excl (.gor g) ∧ (e.op = .read l ∨ e.op = .write l)) → Sound γ (tr ++ es) := by
  intro es
  induction es generalizing tr with
  | nil => intro _; simpa using h
  | cons e es ih =>
    intro he
    obtain ⟨h1, l, h2, h3⟩ := he e (by simp)
    have := ih (h.owner h2 h1 h3) (fun e' h' => he e' (by simp [h']))
    simpa using this

/-- A goroutine writes untouched locations and owns them from now on. -/
theorem Sound.newAll (h : Sound γ tr) {g : G} : ∀ (ls : List L), ls.Nodup → (∀ l ∈ ls, γ.st l = .fresh) →
    Sound (γ.setAll ls (.excl (.gor g))) (tr ++ ls.map (fun l => ⟨g, .write l⟩)) := by
  intro ls
  induction ls generalizing γ tr with
  | nil => intro _ _; simpa [Ghost.setAll] using h
  | cons l ls ih =>
    intro hn hf
    obtain ⟨hn1, hn2⟩ := List.nodup_cons.1 hn
    have h1 := h.new (g := g) (hf l (by simp))
    have h2 := ih h1 hn2 (fun m hm => by
      have : m ≠ l := by rintro rfl; exact hn1 hm
      simp [Ghost.set, this, hf m (by simp [hm])])
    have e : (γ.set l (.excl (.gor g))).setAll ls (.excl (.gor g)) = γ.setAll (l :: ls) (.excl (.gor g)) := by
      unfold Ghost.set Ghost.setAll
      congr 1
      funext m
      by_cases a : m ∈ ls <;> by_cases b : m = l <;> simp [a, b]
    rw [e] at h2
    simpa using h2

end Resmix.Race
