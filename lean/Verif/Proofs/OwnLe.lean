import Verif.Proofs.OwnList
set_option autoImplicit false
/- Ownership: what stays the same when some locations change hands. -/
namespace Resmix.Race
variable {G L S : Type}

/-- `l` is no longer written, and `h` knows of the writes to it. -/
def Kn (γ : Ghost G L S) (h : Holder G S) (l : L) : Prop := (∃ b, γ.st l = .froz b) ∧ γ.K h l

/-- From `γ` to `γ'` only locations in `P` change hands. -/
def Le (P : L → Prop) (γ γ' : Ghost G L S) : Prop :=
  ∀ l, ¬ P l → (γ'.st l = γ.st l ∨ ∃ b b', γ.st l = .froz b ∧ γ'.st l = .froz b') ∧ ∀ h, γ.K h l → γ'.K h l

variable {P : L → Prop} {γ γ' : Ghost G L S}

theorem Le.refl (γ : Ghost G L S) : Le (fun _ => False) γ γ := fun _ _ => ⟨.inl rfl, fun _ h => h⟩

theorem Le.excl (h : Le P γ γ') {l : L} (hl : ¬ P l) {o : Holder G S} (e : γ.st l = .excl o) : γ'.st l = .excl o := by
  rcases (h l hl).1 with h | ⟨b, b', h, _⟩
  · rw [h, e]
  · rw [e] at h; cases h

theorem Le.fresh (h : Le P γ γ') {l : L} (hl : ¬ P l) (e : γ.st l = .fresh) : γ'.st l = .fresh := by
  rcases (h l hl).1 with h | ⟨b, b', h, _⟩
  · rw [h, e]
  · rw [e] at h; cases h

theorem Le.kn (h : Le P γ γ') {l : L} (hl : ¬ P l) {o : Holder G S} (e : Kn γ o l) : Kn γ' o l := by
  obtain ⟨⟨b, hb⟩, hK⟩ := e
  obtain ⟨h1, h2⟩ := h _ hl
  refine ⟨?_, h2 _ hK⟩
  rcases h1 with h1 | ⟨_, b', _, h1⟩
  · exact ⟨b, by rw [h1, hb]⟩
  · exact ⟨b', h1⟩

theorem Le.tell (g : G) (o : S) : Le (fun _ => False) γ (γ.tell g o) := fun _ _ => ⟨.inl rfl, fun _ hk => .inl hk⟩
theorem Le.learn (g : G) (o : S) : Le (fun _ => False) γ (γ.learn g o) := fun _ _ => ⟨.inl rfl, fun _ hk => .inl hk⟩

theorem Kn.tell {g : G} {l : L} (h : Kn γ (.gor g) l) (o : S) : Kn (γ.tell g o) (.obj o) l := ⟨h.1, .inr ⟨rfl, h.2⟩⟩
theorem Kn.learn {o : S} {l : L} (h : Kn γ (.obj o) l) (g : G) : Kn (γ.learn g o) (.gor g) l := ⟨h.1, .inr ⟨rfl, h.2⟩⟩

theorem Le.trans {Q R : L → Prop} {γ'' : Ghost G L S} (h1 : Le P γ γ') (h2 : Le Q γ' γ'') (hP : ∀ l, P l → R l) (hQ : ∀ l, Q l → R l) : Le R γ γ'' := by
  intro l hl
  obtain ⟨a1, a2⟩ := h1 l (fun h => hl (hP l h))
  obtain ⟨b1, b2⟩ := h2 l (fun h => hl (hQ l h))
  refine ⟨?_, fun h hk => b2 h (a2 h hk)⟩
  rcases a1 with a1 | ⟨b, b', a1, a1'⟩ <;> rcases b1 with b1 | ⟨c, c', b1, b1'⟩
  · exact .inl (by rw [b1, a1])
  · exact .inr ⟨c, c', by rw [← a1, b1], b1'⟩
  · exact .inr ⟨b, b', a1, by rw [b1, a1']⟩
  · exact .inr ⟨b, c', a1, b1'⟩

variable [DecidableEq L]

theorem Le.set (l : L) (x : LSt G S) : Le (· = l) γ (γ.set l x) := by
  intro m hm; exact ⟨.inl (by simp [Ghost.set, hm]), fun h hk => hk⟩

theorem Le.freeze (l : L) (b : Bool) (o : Holder G S) : Le (· = l) γ (γ.freeze l b o) := by
  intro m hm; exact ⟨.inl (by simp [Ghost.freeze, hm]), fun h hk => by simpa [Ghost.freeze, hm] using hk⟩

theorem Kn.freeze (l : L) (o : Holder G S) (b : Bool) : Kn (γ.freeze l b o) o l := ⟨⟨b, by simp [Ghost.freeze]⟩, by simp [Ghost.freeze]⟩

variable {tr : List (Event G L S)}

/-- A goroutine reads a frozen location it knows of. -/
theorem Sound.readKn (h : Sound γ tr) {g : G} {l : L} (hk : Kn γ (.gor g) l) : ∃ γ', Le (fun _ => False) γ γ' ∧ Sound γ' (tr ++ [⟨g, .read l⟩]) := by
  obtain ⟨⟨b, hb⟩, hK⟩ := hk
  refine ⟨_, ?_, h.read hb hK⟩
  intro m _
  refine ⟨?_, fun _ h => h⟩
  by_cases e : m = l
  · subst e; exact .inr ⟨b, false, hb, by simp [Ghost.set]⟩
  · exact .inl (by simp [Ghost.set, e])

end Resmix.Race
