import Verif.Proofs.Race
set_option autoImplicit false
/-
Ownership: a way to prove that a trace has no data races. Every location is untouched, or owned by a goroutine, or in transit with a synchronisation object, or
frozen, i.e. only read, by those who know of all writes to it.
-/
namespace Resmix.Race
variable {G L S : Type}

/-- Who may hold a location, or know of its writes. -/
inductive Holder (G S : Type)
  | gor (g : G)
  | obj (s : S)

/-- Whoever acts for `h` next does so after position `i`. -/
def KnownAt (tr : List (Event G L S)) : Holder G S → Nat → Prop
  | .gor g, i => Known tr g i
  | .obj s, i => Rel tr s i

theorem KnownAt.mono {tr : List (Event G L S)} {h : Holder G S} {i : Nat} (k : KnownAt tr h i) (l : List (Event G L S)) : KnownAt (tr ++ l) h i := by
  cases h with
  | gor g => exact Known.mono k l
  | obj s => exact Rel.mono k l

inductive LSt (G S : Type)
  | fresh
  | excl (h : Holder G S)
  | froz (unread : Bool)

structure Ghost (G L S : Type) where
  st : L → LSt G S
  K : Holder G S → L → Prop

def Reads (e : Event G L S) (l : L) : Prop := e.op = .read l
def Writes (e : Event G L S) (l : L) : Prop := e.op = .write l

theorem conflict_loc {a b : Event G L S} (h : Conflict a b) : ∃ l, (Writes a l ∧ (Reads b l ∨ Writes b l)) ∨ (Reads a l ∧ Writes b l) := h

/-- What a ghost state says about a trace. -/
structure Sound (γ : Ghost G L S) (tr : List (Event G L S)) : Prop where
  free : RaceFree tr
  fresh : ∀ l, γ.st l = .fresh → ∀ (k : Nat) e, tr[k]? = some e → ¬ Reads e l ∧ ¬ Writes e l
  excl : ∀ l h, γ.st l = .excl h → ∀ (k : Nat) e, tr[k]? = some e → Reads e l ∨ Writes e l → KnownAt tr h k
  froz : ∀ l b h, γ.st l = .froz b → γ.K h l → ∀ (k : Nat) e, tr[k]? = some e → Writes e l → KnownAt tr h k
  unread : ∀ l, γ.st l = .froz true → ∀ (k : Nat) e, tr[k]? = some e → ¬ Reads e l

def Ghost.init : Ghost G L S := ⟨fun _ => .fresh, fun _ _ => False⟩

theorem Sound.init : Sound (Ghost.init : Ghost G L S) [] := by
  constructor <;> simp [RaceFree.nil]

variable [DecidableEq L] {γ : Ghost G L S} {tr : List (Event G L S)}

/-- Location `l` changes to `x`. -/
def Ghost.set (γ : Ghost G L S) (l : L) (x : LSt G S) : Ghost G L S := { γ with st := fun m => if m = l then x else γ.st m }

/-- Location `l` is frozen, only `h` knows of its writes. -/
def Ghost.freeze (γ : Ghost G L S) (l : L) (unread : Bool) (h : Holder G S) : Ghost G L S :=
  { st := fun m => if m = l then .froz unread else γ.st m
    K := fun h' m => if m = l then h' = h else γ.K h' m }

theorem not_sync {e : Event G L S} (he : (∃ s, e.op = .release s) ∨ ∃ s, e.op = .acquire s) (l : L) : ¬ Reads e l ∧ ¬ Writes e l := by
  unfold Reads Writes
  rcases he with ⟨s, h⟩ | ⟨s, h⟩ <;> simp [h]

/-- The owner accesses its location. -/
theorem Sound.owner (h : Sound γ tr) {g : G} {l : L} {e : Event G L S} (hl : γ.st l = .excl (.gor g)) (hg : e.g = g) (he : e.op = .read l ∨ e.op = .write l) :
    Sound γ (tr ++ [e]) := by
  have hone : ∀ m, Reads e m ∨ Writes e m → m = l := by
    intro m hm
    unfold Reads Writes at hm
    rcases he with he | he <;> rw [he] at hm <;> simp at hm <;> exact hm.symm
  constructor
  · refine h.free.snoc fun i a hi hc => ?_
    obtain ⟨m, hm⟩ := conflict_loc hc
    have : m = l := hone m (by tauto)
    subst this
    subst hg
    exact h.excl m _ hl i a hi (by tauto)
  · intro m hm k x hk
    rcases get_snoc hk with ⟨-, rfl⟩ | ⟨-, hk⟩
    · have : m ≠ l := by rintro rfl; rw [hl] at hm; cases hm
      exact ⟨fun hx => this (hone m (.inl hx)), fun hx => this (hone m (.inr hx))⟩
    · exact h.fresh m hm k x hk
  · intro m hh hm k x hk hx
    rcases get_snoc hk with ⟨rfl, rfl⟩ | ⟨-, hk⟩
    · have := hone m hx
      subst this
      rw [hl] at hm; cases hm
      subst hg
      exact Known.self tr _
    · exact (h.excl m hh hm k x hk hx).mono _
  · intro m b hh hm hK k x hk hx
    rcases get_snoc hk with ⟨rfl, rfl⟩ | ⟨-, hk⟩
    · have := hone m (.inr hx)
      subst this
      rw [hl] at hm; cases hm
    · exact (h.froz m b hh hm hK k x hk hx).mono _
  · intro m hm k x hk hx
    rcases get_snoc hk with ⟨rfl, rfl⟩ | ⟨-, hk⟩
    · have := hone m (.inl hx)
      subst this
      rw [hl] at hm; cases hm
    · exact h.unread m hm k x hk hx

/-- A goroutine writes an untouched location and owns it from now on. -/
theorem Sound.new (h : Sound γ tr) {g : G} {l : L} (hl : γ.st l = .fresh) : Sound (γ.set l (.excl (.gor g))) (tr ++ [⟨g, .write l⟩]) := by
  have h' : Sound (γ.set l (.excl (.gor g))) tr := by
    constructor
    · exact h.free
    · intro m hm k x hk
      by_cases hml : m = l
      · subst hml; exact h.fresh m hl k x hk
      · simp only [Ghost.set, if_neg hml] at hm; exact h.fresh m hm k x hk
    · intro m hh hm k x hk hx
      by_cases hml : m = l
      · subst hml; have := h.fresh m hl k x hk; tauto
      · simp only [Ghost.set, if_neg hml] at hm; exact h.excl m hh hm k x hk hx
    · intro m b hh hm hK k x hk hx
      by_cases hml : m = l
      · subst hml; simp [Ghost.set] at hm
      · simp only [Ghost.set, if_neg hml] at hm; exact h.froz m b hh hm hK k x hk hx
    · intro m hm k x hk hx
      by_cases hml : m = l
      · subst hml; simp [Ghost.set] at hm
      · simp only [Ghost.set, if_neg hml] at hm; exact h.unread m hm k x hk hx
  exact h'.owner (l := l) (g := g) (by simp [Ghost.set]) rfl (.inr rfl)

/-- The owner of a location freezes it. -/
theorem Sound.freeze (h : Sound γ tr) {o : Holder G S} {l : L} (hl : γ.st l = .excl o) : Sound (γ.freeze l false o) tr := by
  constructor
  · exact h.free
  · intro m hm k x hk
    by_cases hml : m = l
    · subst hml; simp [Ghost.freeze] at hm
    · simp only [Ghost.freeze, if_neg hml] at hm; exact h.fresh m hm k x hk
  · intro m hh hm k x hk hx
    by_cases hml : m = l
    · subst hml; simp [Ghost.freeze] at hm
    · simp only [Ghost.freeze, if_neg hml] at hm; exact h.excl m hh hm k x hk hx
  · intro m b hh hm hK k x hk hx
    by_cases hml : m = l
    · subst hml
      simp only [Ghost.freeze, if_pos] at hK
      subst hK
      exact h.excl m _ hl k x hk (.inr hx)
    · simp only [Ghost.freeze, if_neg hml] at hm hK; exact h.froz m b hh hm hK k x hk hx
  · intro m hm k x hk hx
    by_cases hml : m = l
    · subst hml; simp [Ghost.freeze] at hm
    · simp only [Ghost.freeze, if_neg hml] at hm; exact h.unread m hm k x hk hx

/-- A goroutine writes an untouched location, once for all readers. -/
theorem Sound.newFrozen (h : Sound γ tr) {g : G} {l : L} (hl : γ.st l = .fresh) : Sound (γ.freeze l true (.gor g)) (tr ++ [⟨g, .write l⟩]) := by
  have h1 := (h.new (g := g) hl).freeze (o := .gor g) (l := l) (by simp [Ghost.set])
  constructor
  · exact h1.free
  · intro m hm
    refine h1.fresh m ?_
    by_cases hml : m = l
    · subst hml; simp [Ghost.freeze] at hm
    · simpa [Ghost.freeze, Ghost.set, hml] using hm
  · intro m hh hm
    refine h1.excl m hh ?_
    by_cases hml : m = l
    · subst hml; simp [Ghost.freeze] at hm
    · simpa [Ghost.freeze, Ghost.set, hml] using hm
  · intro m b hh hm hK
    by_cases hml : m = l
    · subst hml
      exact h1.froz m false hh (by simp [Ghost.freeze]) (by simpa [Ghost.freeze] using hK)
    · refine h1.froz m b hh (by simpa [Ghost.freeze, Ghost.set, hml] using hm) (by simpa [Ghost.freeze, Ghost.set, hml] using hK)
  · intro m hm k x hk hx
    rcases get_snoc hk with ⟨rfl, rfl⟩ | ⟨-, hk'⟩
    · simp [Reads] at hx
    · by_cases hml : m = l
      · subst hml; exact (h.fresh m hl k x hk').1 hx
      · exact h.unread m (by simpa [Ghost.freeze, hml] using hm) k x hk' hx

/-- Somebody who knows of all writes to a frozen location reads it. -/
theorem Sound.read (h : Sound γ tr) {g : G} {l : L} {b : Bool} (hl : γ.st l = .froz b) (hK : γ.K (.gor g) l) :
    Sound (γ.set l (.froz false)) (tr ++ [⟨g, .read l⟩]) := by
  constructor
  · refine h.free.snoc fun i a hi hc => ?_
    obtain ⟨m, hm⟩ := conflict_loc hc
    have hml : m = l := by simp [Reads, Writes] at hm; exact hm.2.symm
    subst hml
    refine h.froz m b _ hl hK i a hi ?_
    simp [Reads, Writes] at hm ⊢
    exact hm
  · intro m hm k x hk
    have hml : m ≠ l := by rintro rfl; simp [Ghost.set] at hm
    simp only [Ghost.set, if_neg hml] at hm
    rcases get_snoc hk with ⟨-, rfl⟩ | ⟨-, hk⟩
    · simp [Reads, Writes]; exact Ne.symm hml
    · exact h.fresh m hm k x hk
  · intro m hh hm k x hk hx
    have hml : m ≠ l := by rintro rfl; simp [Ghost.set] at hm
    simp only [Ghost.set, if_neg hml] at hm
    rcases get_snoc hk with ⟨-, rfl⟩ | ⟨-, hk⟩
    · simp [Reads, Writes] at hx; exact absurd hx.symm hml
    · exact (h.excl m hh hm k x hk hx).mono _
  · intro m b' hh hm hK' k x hk hx
    rcases get_snoc hk with ⟨-, rfl⟩ | ⟨-, hk'⟩
    · simp [Writes] at hx
    · by_cases hml : m = l
      · subst hml; exact (h.froz m b hh hl hK' k x hk' hx).mono _
      · simp only [Ghost.set, if_neg hml] at hm; exact (h.froz m b' hh hm hK' k x hk' hx).mono _
  · intro m hm k x hk hx
    have hml : m ≠ l := by rintro rfl; simp [Ghost.set] at hm
    simp only [Ghost.set, if_neg hml] at hm
    rcases get_snoc hk with ⟨-, rfl⟩ | ⟨-, hk⟩
    · simp [Reads] at hx; exact absurd hx.symm hml
    · exact h.unread m hm k x hk hx

/-- Somebody who knows of all writes to a frozen location that nobody has read owns it. -/
theorem Sound.claim (h : Sound γ tr) {o : Holder G S} {l : L} (hl : γ.st l = .froz true) (hK : γ.K o l) : Sound (γ.set l (.excl o)) tr := by
  constructor
  · exact h.free
  · intro m hm
    have hml : m ≠ l := by rintro rfl; simp [Ghost.set] at hm
    simp only [Ghost.set, if_neg hml] at hm
    exact h.fresh m hm
  · intro m hh hm k x hk hx
    by_cases hml : m = l
    · subst hml
      simp only [Ghost.set, if_pos, LSt.excl.injEq] at hm
      subst hm
      exact h.froz m true _ hl hK k x hk (by rcases hx with hx | hx; exacts [absurd hx (h.unread m hl k x hk), hx])
    · simp only [Ghost.set, if_neg hml] at hm; exact h.excl m hh hm k x hk hx
  · intro m b hh hm hK' 
    have hml : m ≠ l := by rintro rfl; simp [Ghost.set] at hm
    simp only [Ghost.set, if_neg hml] at hm
    exact h.froz m b hh hm hK'
  · intro m hm
    have hml : m ≠ l := by rintro rfl; simp [Ghost.set] at hm
    simp only [Ghost.set, if_neg hml] at hm
    exact h.unread m hm

/-- What `g` knows, `s` knows. -/
def Ghost.tell (γ : Ghost G L S) (g : G) (s : S) : Ghost G L S := { γ with K := fun h l => γ.K h l ∨ (h = .obj s ∧ γ.K (.gor g) l) }

/-- What `s` knows, `g` knows. -/
def Ghost.learn (γ : Ghost G L S) (g : G) (s : S) : Ghost G L S := { γ with K := fun h l => γ.K h l ∨ (h = .gor g ∧ γ.K (.obj s) l) }

theorem Sound.sync_aux (h : Sound γ tr) {e : Event G L S} (he : (∃ s, e.op = .release s) ∨ ∃ s, e.op = .acquire s) {γ' : Ghost G L S}
    (hfresh : ∀ l, γ'.st l = .fresh → γ.st l = .fresh)
    (hexcl : ∀ l o, γ'.st l = .excl o → ∃ o', γ.st l = .excl o' ∧ ∀ k, KnownAt tr o' k → KnownAt (tr ++ [e]) o k)
    (hfroz : ∀ l b, γ'.st l = .froz b → γ.st l = .froz b)
    (hK : ∀ o l, γ'.K o l → ∃ o', γ.K o' l ∧ ∀ k, KnownAt tr o' k → KnownAt (tr ++ [e]) o k) : Sound γ' (tr ++ [e]) := by
  have hno := not_sync he
  constructor
  · exact h.free.snoc_sync he
  · intro m hm k x hk
    rcases get_snoc hk with ⟨-, rfl⟩ | ⟨-, hk⟩
    · exact hno m
    · exact h.fresh m (hfresh m hm) k x hk
  · intro m o hm k x hk hx
    rcases get_snoc hk with ⟨-, rfl⟩ | ⟨-, hk⟩
    · have := hno m; tauto
    · obtain ⟨o', h1, h2⟩ := hexcl m o hm
      exact h2 k (h.excl m o' h1 k x hk hx)
  · intro m b o hm hk' k x hk hx
    rcases get_snoc hk with ⟨-, rfl⟩ | ⟨-, hk⟩
    · have := hno m; tauto
    · obtain ⟨o', h1, h2⟩ := hK o m hk'
      exact h2 k (h.froz m b o' (hfroz m b hm) h1 k x hk hx)
  · intro m hm k x hk hx
    rcases get_snoc hk with ⟨-, rfl⟩ | ⟨-, hk⟩
    · have := hno m; tauto
    · exact h.unread m (hfroz m true hm) k x hk hx

theorem Sound.tell (h : Sound γ tr) (g : G) (s : S) : Sound (γ.tell g s) (tr ++ [⟨g, .release s⟩]) := by
  refine h.sync_aux (.inl ⟨s, rfl⟩) (fun l hl => hl) (fun l o hl => ⟨o, hl, fun k hk => hk.mono _⟩) (fun l b hl => hl) ?_
  intro o l hK
  rcases hK with hK | ⟨rfl, hK⟩
  · exact ⟨o, hK, fun k hk => hk.mono _⟩
  · exact ⟨_, hK, fun k hk => Known.release hk rfl⟩

theorem Sound.learn (h : Sound γ tr) (g : G) (s : S) : Sound (γ.learn g s) (tr ++ [⟨g, .acquire s⟩]) := by
  refine h.sync_aux (.inr ⟨s, rfl⟩) (fun l hl => hl) (fun l o hl => ⟨o, hl, fun k hk => hk.mono _⟩) (fun l b hl => hl) ?_
  intro o l hK
  rcases hK with hK | ⟨rfl, hK⟩
  · exact ⟨o, hK, fun k hk => hk.mono _⟩
  · exact ⟨_, hK, fun k hk => Rel.acquire hk rfl⟩

/-- The owner of `l` releases `s` and hands `l` over. -/
theorem Sound.give (h : Sound γ tr) {g : G} (s : S) {l : L} (hl : γ.st l = .excl (.gor g)) :
    Sound ((γ.tell g s).set l (.excl (.obj s))) (tr ++ [⟨g, .release s⟩]) := by
  refine h.sync_aux (.inl ⟨s, rfl⟩) ?_ ?_ ?_ ?_
  · intro m hm
    by_cases hml : m = l
    · subst hml; simp [Ghost.set] at hm
    · simpa [Ghost.set, Ghost.tell, hml] using hm
  · intro m o hm
    by_cases hml : m = l
    · subst hml
      simp only [Ghost.set, if_pos, LSt.excl.injEq] at hm
      subst hm
      exact ⟨_, hl, fun k hk => Known.release hk rfl⟩
    · simp only [Ghost.set, Ghost.tell, if_neg hml] at hm
      exact ⟨o, hm, fun k hk => hk.mono _⟩
  · intro m b hm
    by_cases hml : m = l
    · subst hml; simp [Ghost.set] at hm
    · simpa [Ghost.set, Ghost.tell, hml] using hm
  · intro o l hK
    rcases hK with hK | ⟨rfl, hK⟩
    · exact ⟨o, hK, fun k hk => hk.mono _⟩
    · exact ⟨_, hK, fun k hk => Known.release hk rfl⟩

/-- `g` acquires `s`, with which `l` is in transit. -/
theorem Sound.get (h : Sound γ tr) (g : G) {s : S} {l : L} (hl : γ.st l = .excl (.obj s)) :
    Sound ((γ.learn g s).set l (.excl (.gor g))) (tr ++ [⟨g, .acquire s⟩]) := by
  refine h.sync_aux (.inr ⟨s, rfl⟩) ?_ ?_ ?_ ?_
  · intro m hm
    by_cases hml : m = l
    · subst hml; simp [Ghost.set] at hm
    · simpa [Ghost.set, Ghost.learn, hml] using hm
  · intro m o hm
    by_cases hml : m = l
    · subst hml
      simp only [Ghost.set, if_pos, LSt.excl.injEq] at hm
      subst hm
      exact ⟨_, hl, fun k hk => Rel.acquire hk rfl⟩
    · simp only [Ghost.set, Ghost.learn, if_neg hml] at hm
      exact ⟨o, hm, fun k hk => hk.mono _⟩
  · intro m b hm
    by_cases hml : m = l
    · subst hml; simp [Ghost.set] at hm
    · simpa [Ghost.set, Ghost.learn, hml] using hm
  · intro o l hK
    rcases hK with hK | ⟨rfl, hK⟩
    · exact ⟨o, hK, fun k hk => hk.mono _⟩
    · exact ⟨_, hK, fun k hk => Rel.acquire hk rfl⟩

/-- From a position on, goroutine `g` releases nothing: nothing of other goroutines happens after it. -/
theorem hb_stuck_of {G L S : Type} {tr : List (Event G L S)} {i j : Nat} {a b : Event G L S} (h : HB tr i j) (hi : tr[i]? = some a) (hj : tr[j]? = some b)
    (hst : ∀ (k : Nat) (e : Event G L S), i ≤ k → tr[k]? = some e → e.g = a.g → ∀ o, e.op ≠ .release o) : b.g = a.g := by
  have key : ∀ i j, HB tr i j → i < j ∧ (∃ b, tr[j]? = some b) ∧ ∀ a, tr[i]? = some a → (∀ (k : Nat) (e : Event G L S), i ≤ k → tr[k]? = some e → e.g = a.g → ∀ o, e.op ≠ .release o) →
      ∀ b, tr[j]? = some b → b.g = a.g := by
    intro i j h
    induction h with
    | program hlt h1 h2 hg => refine ⟨hlt, ⟨_, h2⟩, fun a ha _ b hb => ?_⟩; rw [h1] at ha; rw [h2] at hb; cases ha; cases hb; exact hg.symm
    | sync hlt h1 h2 hr _ =>
      refine ⟨hlt, ⟨_, h2⟩, fun a ha hs b hb => ?_⟩
      rw [h1] at ha; cases ha
      exact absurd hr (hs _ _ (Nat.le_refl _) h1 rfl _)
    | @trans i j k _ _ ih1 ih2 =>
      obtain ⟨l1, ⟨x, hx⟩, g1⟩ := ih1
      obtain ⟨l2, e2, g2⟩ := ih2
      refine ⟨Nat.lt_trans l1 l2, e2, fun a ha hs b hb => ?_⟩
      have e := g1 a ha hs x hx
      rw [← e]
      exact g2 x hx (fun k' e' hk he hg o => hs k' e' (by omega) he (by rw [hg, e]) o) b hb
  exact (key i j h).2.2 a hi hst b hj

end Resmix.Race
