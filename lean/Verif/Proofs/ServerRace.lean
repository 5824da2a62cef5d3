import Verif.Model.ServerRace
import Verif.Proofs.GoMap
import Verif.Proofs.OwnList
import Mathlib.Tactic.Tauto
set_option autoImplicit false
namespace Resmix.Rrpc.ServerRace
open Resmix.Race

abbrev Gh := Ghost Gor Loc Obj

/-- `l` is no longer written, and `h` knows of the writes to it. -/
def Kn (γ : Gh) (h : Holder Gor Obj) (l : Loc) : Prop := (∃ b, γ.st l = .froz b) ∧ γ.K h l

/-- Who holds what a task consists of. -/
def TaskOk (resps : List Resp) (γ : Gh) (own : Nat → Nat) (t : Nat) (x : Task) : Prop :=
  match x.phase with
  | .collecting => γ.st (.common t) = .fresh ∧ γ.st (.task t) = .excl (.gor .collector) ∧ ∀ p ∈ x.parcels, γ.st (.parcel p) = .excl (.gor .collector) ∧ own p = t
  | .dropped => True
  | .spawned => γ.st (.common t) = .fresh ∧ γ.st (.task t) = .excl (.obj (.spawn t)) ∧ ∀ p ∈ x.parcels, γ.st (.parcel p) = .excl (.obj (.spawn t))
  | .running => γ.st (.common t) = .fresh ∧ ∀ p ∈ x.parcels, γ.st (.parcel p) = .excl (.gor (.runner t))
  | .sending todo => todo.Nodup ∧ ∀ m ∈ todo, γ.st (.resp m) = .excl (.gor (.runner t)) ∧ ∀ r, resps[m]? = some r → ∀ l ∈ r.refs, Kn γ (.gor (.runner t)) l

/-- Who holds a response. -/
def RespOk (γ : Gh) (m : Nat) (r : Resp) : Prop :=
  r.place = .channel → γ.st (.resp m) = .excl (.obj (.back m)) ∧ ∀ l ∈ r.refs, Kn γ (.obj (.back m)) l

/-- Who holds what in a state. -/
structure Link (s : State) (γ : Gh) (own : Nat → Nat) : Prop where
  q : ∀ p ∈ s.queue, γ.st (.parcel p) = .excl (.obj (.queued p))
  qn : s.queue.Nodup
  ta : ∀ (t : Nat) x, s.tasks[t]? = some x → TaskOk s.resps γ own t x
  re : ∀ (m : Nat) r, s.resps[m]? = some r → RespOk γ m r
  fp : ∀ p, s.parcels.length ≤ p → γ.st (.parcel p) = .fresh
  ft : ∀ t, s.tasks.length ≤ t → γ.st (.task t) = .fresh
  fc : ∀ t, s.tasks.length ≤ t → γ.st (.common t) = .fresh
  fr : ∀ m, s.resps.length ≤ m → γ.st (.resp m) = .fresh
  mp : s.tasks ≠ [] → γ.st .map = .excl (.gor .collector)
  mf : s.tasks = [] → γ.st .map = .fresh
  op : ∀ key t, GoMap.lookup s.open_ key = some t → ∃ x p₀, s.tasks[t]? = some x ∧ x.phase = .collecting ∧ x.parcels.head? = some p₀ ∧ s.parcels[p₀]? = some key
  cu : ∀ t, s.cur = some t → ∃ x, s.tasks[t]? = some x ∧ x.phase = .collecting

/-- From `γ` to `γ'` only locations in `P` change hands. -/
def Le (P : Loc → Prop) (γ γ' : Gh) : Prop :=
  ∀ l, ¬ P l → (γ'.st l = γ.st l ∨ ∃ b b', γ.st l = .froz b ∧ γ'.st l = .froz b') ∧ ∀ h, γ.K h l → γ'.K h l

theorem Le.excl {P : Loc → Prop} {γ γ' : Gh} (h : Le P γ γ') {l : Loc} (hl : ¬ P l) {o : Holder Gor Obj} (e : γ.st l = .excl o) : γ'.st l = .excl o := by
  rcases (h l hl).1 with h | ⟨b, b', h, _⟩
  · rw [h, e]
  · rw [e] at h; cases h

theorem Le.fresh {P : Loc → Prop} {γ γ' : Gh} (h : Le P γ γ') {l : Loc} (hl : ¬ P l) (e : γ.st l = .fresh) : γ'.st l = .fresh := by
  rcases (h l hl).1 with h | ⟨b, b', h, _⟩
  · rw [h, e]
  · rw [e] at h; cases h

theorem Le.kn {P : Loc → Prop} {γ γ' : Gh} (h : Le P γ γ') {l : Loc} (hl : ¬ P l) {o : Holder Gor Obj} (e : Kn γ o l) : Kn γ' o l := by
  obtain ⟨⟨b, hb⟩, hK⟩ := e
  obtain ⟨h1, h2⟩ := h _ hl
  refine ⟨?_, h2 _ hK⟩
  rcases h1 with h1 | ⟨_, b', _, h1⟩
  · exact ⟨b, by rw [h1, hb]⟩
  · exact ⟨b', h1⟩

theorem Le.set {γ : Gh} (l : Loc) (x : LSt Gor Obj) : Le (· = l) γ (γ.set l x) := by
  intro m hm; exact ⟨.inl (by simp [Ghost.set, hm]), fun h hk => hk⟩

theorem Le.setAll {γ : Gh} (ls : List Loc) (x : LSt Gor Obj) : Le (· ∈ ls) γ (γ.setAll ls x) := by
  intro m hm; exact ⟨.inl (by simp [Ghost.setAll, hm]), fun h hk => hk⟩

theorem Le.tell {γ : Gh} (g : Gor) (o : Obj) : Le (fun _ => False) γ (γ.tell g o) := fun _ _ => ⟨.inl rfl, fun _ hk => .inl hk⟩
theorem Le.learn {γ : Gh} (g : Gor) (o : Obj) : Le (fun _ => False) γ (γ.learn g o) := fun _ _ => ⟨.inl rfl, fun _ hk => .inl hk⟩

theorem Le.freeze {γ : Gh} (l : Loc) (b : Bool) (o : Holder Gor Obj) : Le (· = l) γ (γ.freeze l b o) := by
  intro m hm; exact ⟨.inl (by simp [Ghost.freeze, hm]), fun h hk => by simpa [Ghost.freeze, hm] using hk⟩

theorem Le.trans {P Q R : Loc → Prop} {γ γ' γ'' : Gh} (h1 : Le P γ γ') (h2 : Le Q γ' γ'') (hP : ∀ l, P l → R l) (hQ : ∀ l, Q l → R l) : Le R γ γ'' := by
  intro l hl
  obtain ⟨a1, a2⟩ := h1 l (fun h => hl (hP l h))
  obtain ⟨b1, b2⟩ := h2 l (fun h => hl (hQ l h))
  refine ⟨?_, fun h hk => b2 h (a2 h hk)⟩
  rcases a1 with a1 | ⟨b, b', a1, a1'⟩ <;> rcases b1 with b1 | ⟨c, c', b1, b1'⟩
  · exact .inl (by rw [b1, a1])
  · exact .inr ⟨c, c', by rw [← a1, b1], b1'⟩
  · exact .inr ⟨b, b', a1, by rw [b1, a1']⟩
  · exact .inr ⟨b, c', a1, b1'⟩

theorem snoc2 {α : Type} (l : List α) (a b : α) : l ++ [a, b] = l ++ [a] ++ [b] := by simp
theorem snoc3 {α : Type} (l : List α) (a b c : α) : l ++ [a, b, c] = l ++ [a] ++ [b] ++ [c] := by simp
theorem snoc4 {α : Type} (l : List α) (a b c d : α) : l ++ [a, b, c, d] = l ++ [a] ++ [b] ++ [c] ++ [d] := by simp

/-- Responses keep their notes. -/
def Notes (γ : Gh) (resps resps' : List Resp) : Prop :=
  ∀ (m : Nat) r', resps'[m]? = some r' → γ.st (.resp m) ≠ .fresh → ∃ r, resps[m]? = some r ∧ r.refs = r'.refs

theorem Notes.refl (γ : Gh) (resps : List Resp) : Notes γ resps resps := fun _ r' h _ => ⟨r', h, rfl⟩

theorem TaskOk.le {resps resps' : List Resp} {γ γ' : Gh} {own own' : Nat → Nat} {t : Nat} {x : Task} {P : Loc → Prop} (h : TaskOk resps γ own t x) (le : Le P γ γ')
    (hn : Notes γ resps resps') (ho : ∀ p, γ.st (.parcel p) = .excl (.gor .collector) → own' p = own p)
    (hP : ∀ l, P l → (∀ b, γ.st l ≠ .froz b) ∧ l ≠ .common t ∧ γ.st l ≠ .excl (.obj (.spawn t)) ∧ γ.st l ≠ .excl (.gor (.runner t)) ∧
      (γ.st l = .excl (.gor .collector) → l ≠ .task t ∧ ∀ p, l = .parcel p → own p ≠ t)) : TaskOk resps' γ' own' t x := by
  unfold TaskOk at h ⊢
  split at h
  · obtain ⟨h0, h1, h2⟩ := h
    exact ⟨le.fresh (fun c => (hP _ c).2.1 rfl) h0, le.excl (fun c => ((hP _ c).2.2.2.2 h1).1 rfl) h1, fun p hp => ⟨le.excl (fun c => ((hP _ c).2.2.2.2 (h2 p hp).1).2 p rfl (h2 p hp).2) (h2 p hp).1, by rw [ho p (h2 p hp).1]; exact (h2 p hp).2⟩⟩
  · trivial
  · obtain ⟨h0, h1, h2⟩ := h
    exact ⟨le.fresh (fun c => (hP _ c).2.1 rfl) h0, le.excl (fun c => (hP _ c).2.2.1 h1) h1, fun p hp => le.excl (fun c => (hP _ c).2.2.1 (h2 p hp)) (h2 p hp)⟩
  · exact ⟨le.fresh (fun c => (hP _ c).2.1 rfl) h.1, fun p hp => le.excl (fun c => (hP _ c).2.2.2.1 (h.2 p hp)) (h.2 p hp)⟩
  · refine ⟨h.1, fun m hm => ?_⟩
    obtain ⟨a, b⟩ := h.2 m hm
    refine ⟨le.excl (fun c => (hP _ c).2.2.2.1 a) a, fun r' hr l hl => ?_⟩
    obtain ⟨r, hr1, hr2⟩ := hn m r' hr (by rw [a]; simp)
    have k := b r hr1 l (by rw [hr2]; exact hl)
    exact le.kn (fun c => (hP _ c).1 _ k.1.choose_spec) k

theorem RespOk.le {γ γ' : Gh} {m : Nat} {r : Resp} {P : Loc → Prop} (h : RespOk γ m r) (le : Le P γ γ')
    (hP : ∀ l, P l → (∀ b, γ.st l ≠ .froz b) ∧ γ.st l ≠ .excl (.obj (.back m))) : RespOk γ' m r := by
  intro hc
  obtain ⟨a, b⟩ := h hc
  exact ⟨le.excl (fun c => (hP _ c).2 a) a, fun p hp => le.kn (fun c => (hP _ c).1 _ (b p hp).1.choose_spec) (b p hp)⟩

end Resmix.Rrpc.ServerRace
