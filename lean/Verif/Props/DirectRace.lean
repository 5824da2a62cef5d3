import Verif.Spec.DirectRace
import Verif.Proofs.Race
import Verif.Props.DirectClient
set_option autoImplicit false
/-
C126: the request of a direct call belongs to the caller again when the call has returned.
-/
namespace Resmix.Rrpc.DirectRace
open Resmix.Race Resmix.Rrpc.DirectClient
variable {ρ : Type}

/-! ### Careful runs -/

inductive Phase
  | absent | pending | sending | over | answered
deriving DecidableEq

def acc (e : Entry) (i : Nat) : Prop := e.op = .read (.args i) ∨ e.op = .write (.args i) ∨ e.op = .read (.reply i) ∨ e.op = .write (.reply i)
def wri (e : Entry) (i : Nat) : Prop := e.op = .write (.args i) ∨ e.op = .write (.reply i)
def rea (e : Entry) (i : Nat) : Prop := e.op = .read (.args i) ∨ e.op = .read (.reply i)

theorem acc_iff (e : Entry) (i : Nat) : acc e i ↔ wri e i ∨ rea e i := by unfold acc wri rea; tauto

theorem conflict_acc {a b : Entry} (h : Conflict a b) : ∃ i, acc a i ∧ acc b i ∧ (wri a i ∨ wri b i) := by
  obtain ⟨l, h⟩ := h
  cases l with
  | args i => exact ⟨i, by unfold acc wri; rcases h with ⟨h1, h2 | h2⟩ | ⟨h1, h2⟩ <;> simp [h1, h2]⟩
  | reply i => exact ⟨i, by unfold acc wri; rcases h with ⟨h1, h2 | h2⟩ | ⟨h1, h2⟩ <;> simp [h1, h2]⟩

/-- What the trace of a careful run satisfies. -/
structure TInv (ph : Nat → Phase) (enq : Nat → Prop) (tr : List Entry) : Prop where
  free : RaceFree tr
  dom : ∀ (k : Nat) (e : Entry), tr[k]? = some e → ∀ i, acc e i → ph i ≠ .absent
  wr : ∀ i, ph i = .pending ∨ ph i = .over → ∀ (k : Nat) (e : Entry), tr[k]? = some e → wri e i → e.g = .user i ∧ Rel tr (.entry i) k ∧ (enq i → Rel tr (.queued i) k)
  rd : ∀ i, ph i = .pending → ∀ (k : Nat) (e : Entry), tr[k]? = some e → rea e i → Rel tr (.wire i) k
  snd : ∀ i, ph i = .sending → ∀ (k : Nat) (e : Entry), tr[k]? = some e → acc e i → Known tr .receiver k
  ans : ∀ i, ph i = .answered → ∀ (k : Nat) (e : Entry), tr[k]? = some e → acc e i → Known tr (.user i) k

theorem TInv.nil (enq : Nat → Prop) : TInv (fun _ => .absent) enq [] := by
  constructor <;> simp [RaceFree.nil]

theorem no_acc_sync {e : Entry} (he : (∃ o, e.op = .release o) ∨ ∃ o, e.op = .acquire o) (i : Nat) : ¬ acc e i := by
  unfold acc
  rcases he with ⟨o, h⟩ | ⟨o, h⟩ <;> simp [h]

/-- A synchronisation that does not change the phases. -/
theorem TInv.sync {ph : Nat → Phase} {enq : Nat → Prop} {tr : List Entry} (h : TInv ph enq tr) {e : Entry} (he : (∃ o, e.op = .release o) ∨ ∃ o, e.op = .acquire o) : TInv ph enq (tr ++ [e]) := by
  have hno := no_acc_sync he
  have hw : ∀ i, ¬ wri e i := fun i hw => hno i ((acc_iff e i).2 (.inl hw))
  have hr : ∀ i, ¬ rea e i := fun i hw => hno i ((acc_iff e i).2 (.inr hw))
  constructor
  · exact h.free.snoc_sync he
  · intro k x hk i ha
    rcases get_snoc hk with ⟨-, rfl⟩ | ⟨-, hk⟩
    · exact absurd ha (hno i)
    · exact h.dom k x hk i ha
  · intro i hp k x hk ha
    rcases get_snoc hk with ⟨-, rfl⟩ | ⟨-, hk⟩
    · exact absurd ha (hw i)
    · obtain ⟨h1, h2, h3⟩ := h.wr i hp k x hk ha
      exact ⟨h1, h2.mono _, fun q => (h3 q).mono _⟩
  · intro i hp k x hk ha
    rcases get_snoc hk with ⟨-, rfl⟩ | ⟨-, hk⟩
    · exact absurd ha (hr i)
    · exact (h.rd i hp k x hk ha).mono _
  · intro i hp k x hk ha
    rcases get_snoc hk with ⟨-, rfl⟩ | ⟨-, hk⟩
    · exact absurd ha (hno i)
    · exact (h.snd i hp k x hk ha).mono _
  · intro i hp k x hk ha
    rcases get_snoc hk with ⟨-, rfl⟩ | ⟨-, hk⟩
    · exact absurd ha (hno i)
    · exact (h.ans i hp k x hk ha).mono _

/-- A step of a call to its end. -/
theorem TInv.phase {ph ph' : Nat → Phase} {enq : Nat → Prop} {tr : List Entry} (h : TInv ph enq tr) (hp : ∀ i, ph' i = ph i ∨ (ph i = .pending ∧ ph' i = .over)) : TInv ph' enq tr := by
  constructor
  · exact h.free
  · intro k x hk i ha
    have := h.dom k x hk i ha
    rcases hp i with e | ⟨e, e'⟩
    · rw [e]; exact this
    · rw [e']; intro h; cases h
  · intro i hq k x hk ha
    refine h.wr i ?_ k x hk ha
    rcases hp i with e | ⟨e, e'⟩
    · rw [← e]; exact hq
    · exact .inl e
  · intro i hq k x hk ha
    refine h.rd i ?_ k x hk ha
    rcases hp i with e | ⟨e, e'⟩
    · rw [← e]; exact hq
    · exact e
  · intro i hq k x hk ha
    refine h.snd i ?_ k x hk ha
    rcases hp i with e | ⟨e, e'⟩
    · rw [← e]; exact hq
    · rw [e'] at hq; cases hq
  · intro i hq k x hk ha
    refine h.ans i ?_ k x hk ha
    rcases hp i with e | ⟨e, e'⟩
    · rw [← e]; exact hq
    · rw [e'] at hq; cases hq

/-- A new call. -/
theorem TInv.call {ph ph' : Nat → Phase} {enq : Nat → Prop} {tr : List Entry} (h : TInv ph enq tr) {i : Nat} (hi : ph i = .absent) (hq : ¬ enq i)
    (hp : ∀ j, ph' j = if j = i then .pending else ph j) :
    TInv ph' enq (tr ++ [⟨.user i, .write (.args i)⟩, ⟨.user i, .write (.reply i)⟩, ⟨.user i, .release (.entry i)⟩]) := by
  have hnone : ∀ (k : Nat) (e : Entry), tr[k]? = some e → ¬ acc e i := fun k e hk ha => h.dom k e hk i ha hi
  rw [show ∀ a b c : Entry, tr ++ [a, b, c] = tr ++ [a] ++ [b] ++ [c] by simp]
  have f1 : RaceFree (tr ++ [⟨.user i, .write (.args i)⟩]) := by
    refine h.free.snoc fun k a hk hc => ?_
    obtain ⟨j, h1, h2, -⟩ := conflict_acc hc
    have : j = i := by unfold acc at h2; simp at h2; exact h2.symm
    subst this; exact absurd h1 (hnone k a hk)
  have f2 : RaceFree (tr ++ [⟨.user i, .write (.args i)⟩] ++ [⟨.user i, .write (.reply i)⟩]) := by
    refine f1.snoc fun k a hk hc => ?_
    obtain ⟨j, h1, h2, -⟩ := conflict_acc hc
    have : j = i := by unfold acc at h2; simp at h2; exact h2.symm
    subst this
    rcases get_snoc hk with ⟨rfl, rfl⟩ | ⟨-, hk⟩
    · exact Known.self tr _
    · exact absurd h1 (hnone k a hk)
  have f3 := f2.snoc_sync (e := ⟨.user i, .release (.entry i)⟩) (.inl ⟨_, rfl⟩)
  -- accesses of the new trace
  have cases3 : ∀ (k : Nat) (e : Entry), (tr ++ [⟨.user i, .write (.args i)⟩] ++ [⟨.user i, .write (.reply i)⟩] ++ [⟨.user i, .release (.entry i)⟩])[k]? = some e → ∀ j, acc e j →
      (j = i ∧ wri e i ∧ e.g = .user i ∧ Rel (tr ++ [⟨.user i, .write (.args i)⟩] ++ [⟨.user i, .write (.reply i)⟩] ++ [⟨.user i, .release (.entry i)⟩]) (.entry i) k) ∨
      (j ≠ i ∧ tr[k]? = some e) := by
    intro k e hk j ha
    rcases get_snoc hk with ⟨-, rfl⟩ | ⟨-, hk⟩
    · exact absurd ha (no_acc_sync (.inl ⟨_, rfl⟩) j)
    · rcases get_snoc hk with ⟨rfl, rfl⟩ | ⟨-, hk⟩
      · have : j = i := by unfold acc at ha; simp at ha; exact ha.symm
        subst this
        exact .inl ⟨rfl, .inr rfl, rfl, Known.release (Known.self _ _) rfl⟩
      · rcases get_snoc hk with ⟨rfl, rfl⟩ | ⟨-, hk⟩
        · have : j = i := by unfold acc at ha; simp at ha; exact ha.symm
          subst this
          exact .inl ⟨rfl, .inl rfl, rfl, Known.release ((Known.self _ _).mono _) rfl⟩
        · exact .inr ⟨fun hji => hnone k e hk (hji ▸ ha), hk⟩
  constructor
  · exact f3
  · intro k e hk j ha
    rw [hp]
    rcases cases3 k e hk j ha with ⟨rfl, -⟩ | ⟨hj, hk⟩
    · simp
    · rw [if_neg hj]; exact h.dom k e hk j ha
  · intro j hj k e hk ha
    rw [hp] at hj
    rcases cases3 k e hk j ((acc_iff e j).2 (.inl ha)) with ⟨rfl, -, h1, h2⟩ | ⟨hji, hk⟩
    · exact ⟨h1, h2, fun q => absurd q hq⟩
    · rw [if_neg hji] at hj
      obtain ⟨h1, h2, h3⟩ := h.wr j hj k e hk ha
      exact ⟨h1, ((h2.mono _).mono _).mono _, fun q => (((h3 q).mono _).mono _).mono _⟩
  · intro j hj k e hk ha
    rw [hp] at hj
    rcases cases3 k e hk j ((acc_iff e j).2 (.inr ha)) with ⟨rfl, hw, -⟩ | ⟨hji, hk⟩
    · unfold rea at ha; unfold wri at hw
      rcases hw with hw | hw <;> rw [hw] at ha <;> simp at ha
    · rw [if_neg hji] at hj
      exact (((h.rd j hj k e hk ha).mono _).mono _).mono _
  · intro j hj k e hk ha
    rw [hp] at hj
    rcases cases3 k e hk j ha with ⟨rfl, -⟩ | ⟨hji, hk⟩
    · simp at hj
    · rw [if_neg hji] at hj
      exact (((h.snd j hj k e hk ha).mono _).mono _).mono _
  · intro j hj k e hk ha
    rw [hp] at hj
    rcases cases3 k e hk j ha with ⟨rfl, -⟩ | ⟨hji, hk⟩
    · simp at hj
    · rw [if_neg hji] at hj
      exact (((h.ans j hj k e hk ha).mono _).mono _).mono _

/-- A call is put on the channel. -/
theorem TInv.enqueue {ph : Nat → Phase} {enq enq' : Nat → Prop} {tr : List Entry} (h : TInv ph enq tr) {i : Nat} (hi : ph i ≠ .answered ∧ ph i ≠ .sending)
    (hq : ∀ j, enq' j → j = i ∨ enq j) : TInv ph enq' (tr ++ [⟨.user i, .release (.queued i)⟩]) := by
  have h' := h.sync (e := ⟨.user i, .release (.queued i)⟩) (.inl ⟨_, rfl⟩)
  refine ⟨h'.free, h'.dom, ?_, h'.rd, h'.snd, h'.ans⟩
  intro j hj k e hk ha
  obtain ⟨h1, h2, h3⟩ := h'.wr j hj k e hk ha
  refine ⟨h1, h2, fun q => ?_⟩
  rcases hq j q with rfl | q
  · rcases get_snoc hk with ⟨-, rfl⟩ | ⟨-, hk⟩
    · unfold wri at ha; simp at ha
    · exact Known.release ⟨k, e, hk, h1, .inl rfl⟩ rfl
  · exact h3 q

/-- The sender takes a request from the channel and sends it. -/
theorem TInv.send {ph : Nat → Phase} {enq : Nat → Prop} {tr : List Entry} (h : TInv ph enq tr) {i : Nat} (hi : ph i = .pending ∨ ph i = .over) (hq : enq i) :
    TInv ph enq (tr ++ [⟨.sender, .acquire (.queued i)⟩, ⟨.sender, .read (.args i)⟩, ⟨.sender, .release (.wire i)⟩]) := by
  rw [show ∀ a b c : Entry, tr ++ [a, b, c] = tr ++ [a] ++ [b] ++ [c] by simp]
  have h1 := h.sync (e := ⟨.sender, .acquire (.queued i)⟩) (.inr ⟨_, rfl⟩)
  have hacc : ∀ j, acc ⟨.sender, .read (.args i)⟩ j → j = i := by intro j ha; unfold acc at ha; simp at ha; exact ha.symm
  have hk1 : ∀ (k : Nat) (e : Entry), (tr ++ [⟨.sender, .acquire (.queued i)⟩])[k]? = some e → wri e i → Known (tr ++ [⟨.sender, .acquire (.queued i)⟩]) .sender k := by
    intro k e hk hw
    rcases get_snoc hk with ⟨-, rfl⟩ | ⟨-, hk⟩
    · unfold wri at hw; simp at hw
    · exact ((h.wr i hi k e hk hw).2.2 hq).acquire rfl
  have f2 : RaceFree (tr ++ [⟨.sender, .acquire (.queued i)⟩] ++ [⟨.sender, .read (.args i)⟩]) := by
    refine h1.free.snoc fun k a hk hc => ?_
    obtain ⟨j, h1, h2, h3⟩ := conflict_acc hc
    obtain rfl := hacc j h2
    refine hk1 k a hk ?_
    rcases h3 with h3 | h3
    · exact h3
    · unfold wri at h3; simp at h3
  have f3 := f2.snoc_sync (e := ⟨.sender, .release (.wire i)⟩) (.inl ⟨_, rfl⟩)
  have cases3 : ∀ (k : Nat) (e : Entry), (tr ++ [⟨.sender, .acquire (.queued i)⟩] ++ [⟨.sender, .read (.args i)⟩] ++ [⟨.sender, .release (.wire i)⟩])[k]? = some e → ∀ j, acc e j →
      (j = i ∧ rea e i ∧ ¬ wri e i ∧ Rel (tr ++ [⟨.sender, .acquire (.queued i)⟩] ++ [⟨.sender, .read (.args i)⟩] ++ [⟨.sender, .release (.wire i)⟩]) (.wire i) k) ∨
      (tr ++ [⟨.sender, .acquire (.queued i)⟩])[k]? = some e := by
    intro k e hk j ha
    rcases get_snoc hk with ⟨-, rfl⟩ | ⟨-, hk⟩
    · exact absurd ha (no_acc_sync (.inl ⟨_, rfl⟩) j)
    · rcases get_snoc hk with ⟨rfl, rfl⟩ | ⟨-, hk⟩
      · obtain rfl := hacc j ha
        exact .inl ⟨rfl, .inl rfl, by unfold wri; simp, Known.release (Known.self _ _) rfl⟩
      · exact .inr hk
  constructor
  · exact f3
  · intro k e hk j ha
    rcases cases3 k e hk j ha with ⟨rfl, -⟩ | hk
    · rcases hi with hi | hi <;> rw [hi] <;> simp
    · exact h1.dom k e hk j ha
  · intro j hj k e hk ha
    rcases cases3 k e hk j ((acc_iff e j).2 (.inl ha)) with ⟨rfl, -, hn, -⟩ | hk
    · exact absurd ha hn
    · obtain ⟨g1, g2, g3⟩ := h1.wr j hj k e hk ha
      exact ⟨g1, (g2.mono _).mono _, fun q => ((g3 q).mono _).mono _⟩
  · intro j hj k e hk ha
    rcases cases3 k e hk j ((acc_iff e j).2 (.inr ha)) with ⟨rfl, -, -, hr⟩ | hk
    · exact hr
    · exact ((h1.rd j hj k e hk ha).mono _).mono _
  · intro j hj k e hk ha
    rcases cases3 k e hk j ha with ⟨rfl, -⟩ | hk
    · rcases hi with hi | hi <;> rw [hi] at hj <;> cases hj
    · exact ((h1.snd j hj k e hk ha).mono _).mono _
  · intro j hj k e hk ha
    rcases cases3 k e hk j ha with ⟨rfl, -⟩ | hk
    · rcases hi with hi | hi <;> rw [hi] at hj <;> cases hj
    · exact ((h1.ans j hj k e hk ha).mono _).mono _

/-- An access by a goroutine that knows of all others. -/
theorem TInv.access {ph ph' : Nat → Phase} {enq : Nat → Prop} {tr : List Entry} (h : TInv ph enq tr) {i : Nat} {e : Entry} (he : ∀ j, acc e j → j = i)
    (hk : ∀ (k : Nat) (a : Entry), tr[k]? = some a → acc a i → (wri a i ∨ wri e i) → Known tr e.g k)
    (hp : ∀ j, j ≠ i → ph' j = ph j) (hi : ph' i ≠ .absent) (hpend : ph' i ≠ .pending) (hover : ph' i = .over → ph i = .over ∧ ¬ wri e i)
    (hsnd : ph' i = .sending → e.g = .receiver ∧ ∀ (k : Nat) (a : Entry), tr[k]? = some a → acc a i → Known tr .receiver k)
    (hans : ph' i = .answered → e.g = .user i ∧ ph i = .answered) : TInv ph' enq (tr ++ [e]) := by
  have hk' : ∀ j, j ≠ i → ¬ acc e j := fun j hj ha => hj (he j ha)
  constructor
  · refine h.free.snoc fun k a hka hc => ?_
    obtain ⟨j, h1, h2, h3⟩ := conflict_acc hc
    obtain rfl := he j h2
    exact hk k a hka h1 h3
  · intro k x hkx j ha
    by_cases hj : j = i
    · subst hj; exact hi
    · rw [hp j hj]
      rcases get_snoc hkx with ⟨-, rfl⟩ | ⟨-, hkx⟩
      · exact absurd ha (hk' j hj)
      · exact h.dom k x hkx j ha
  · intro j hph k x hkx ha
    by_cases hj : j = i
    · subst hj
      rcases hph with hph | hph
      · exact absurd hph hpend
      · obtain ⟨ho, hnw⟩ := hover hph
        rcases get_snoc hkx with ⟨-, rfl⟩ | ⟨-, hkx⟩
        · exact absurd ha hnw
        · obtain ⟨g1, g2, g3⟩ := h.wr j (.inr ho) k x hkx ha
          exact ⟨g1, g2.mono _, fun q => (g3 q).mono _⟩
    · rw [hp j hj] at hph
      rcases get_snoc hkx with ⟨-, rfl⟩ | ⟨-, hkx⟩
      · exact absurd ((acc_iff _ _).2 (.inl ha)) (hk' j hj)
      · obtain ⟨g1, g2, g3⟩ := h.wr j hph k x hkx ha
        exact ⟨g1, g2.mono _, fun q => (g3 q).mono _⟩
  · intro j hph k x hkx ha
    by_cases hj : j = i
    · subst hj; exact absurd hph hpend
    · rw [hp j hj] at hph
      rcases get_snoc hkx with ⟨-, rfl⟩ | ⟨-, hkx⟩
      · exact absurd ((acc_iff _ _).2 (.inr ha)) (hk' j hj)
      · exact (h.rd j hph k x hkx ha).mono _
  · intro j hph k x hkx ha
    by_cases hj : j = i
    · subst hj
      obtain ⟨hg, hall⟩ := hsnd hph
      rcases get_snoc hkx with ⟨rfl, rfl⟩ | ⟨-, hkx⟩
      · rw [← hg]; exact Known.self _ _
      · exact (hall k x hkx ha).mono _
    · rw [hp j hj] at hph
      rcases get_snoc hkx with ⟨-, rfl⟩ | ⟨-, hkx⟩
      · exact absurd ha (hk' j hj)
      · exact (h.snd j hph k x hkx ha).mono _
  · intro j hph k x hkx ha
    by_cases hj : j = i
    · subst hj
      obtain ⟨hg, hold⟩ := hans hph
      rcases get_snoc hkx with ⟨rfl, rfl⟩ | ⟨-, hkx⟩
      · rw [← hg]; exact Known.self _ _
      · exact (h.ans j hold k x hkx ha).mono _
    · rw [hp j hj] at hph
      rcases get_snoc hkx with ⟨-, rfl⟩ | ⟨-, hkx⟩
      · exact absurd ha (hk' j hj)
      · exact (h.ans j hph k x hkx ha).mono _

/-- A response is received. -/
theorem TInv.respond {ph ph' : Nat → Phase} {enq : Nat → Prop} {tr : List Entry} (h : TInv ph enq tr) {i : Nat} (hi : ph i = .pending)
    (hp : ∀ j, ph' j = if j = i then .sending else ph j) :
    TInv ph' enq (tr ++ [⟨.receiver, .acquire (.entry i)⟩, ⟨.receiver, .acquire (.wire i)⟩, ⟨.receiver, .write (.reply i)⟩]) := by
  rw [show ∀ a b c : Entry, tr ++ [a, b, c] = tr ++ [a] ++ [b] ++ [c] by simp]
  have h1 := (h.sync (e := ⟨.receiver, .acquire (.entry i)⟩) (.inr ⟨_, rfl⟩)).sync (e := ⟨.receiver, .acquire (.wire i)⟩) (.inr ⟨_, rfl⟩)
  have hall : ∀ (k : Nat) (a : Entry), (tr ++ [⟨.receiver, .acquire (.entry i)⟩] ++ [⟨.receiver, .acquire (.wire i)⟩])[k]? = some a → acc a i →
      Known (tr ++ [⟨.receiver, .acquire (.entry i)⟩] ++ [⟨.receiver, .acquire (.wire i)⟩]) .receiver k := by
    intro k a hk ha
    rcases get_snoc hk with ⟨-, rfl⟩ | ⟨-, hk⟩
    · exact absurd ha (no_acc_sync (.inr ⟨_, rfl⟩) i)
    rcases get_snoc hk with ⟨-, rfl⟩ | ⟨-, hk⟩
    · exact absurd ha (no_acc_sync (.inr ⟨_, rfl⟩) i)
    rcases (acc_iff a i).1 ha with ha | ha
    · exact ((h.wr i (.inl hi) k a hk ha).2.1.acquire rfl).mono _
    · exact ((h.rd i hi k a hk ha).mono _).acquire rfl
  refine h1.access (i := i) (e := ⟨.receiver, .write (.reply i)⟩) (fun j ha => ?_) (fun k a hk ha _ => hall k a hk ha) (fun j hj => by rw [hp, if_neg hj]) ?_ ?_ ?_ (fun _ => ⟨rfl, hall⟩) ?_
  · unfold acc at ha; simp at ha; exact ha.symm
  all_goals (rw [hp]; simp)

/-- The result of a response is received. -/
theorem TInv.dispatch {ph ph' : Nat → Phase} {enq : Nat → Prop} {tr : List Entry} (h : TInv ph enq tr) {i : Nat} (hi : ph i = .sending)
    (hp : ∀ j, ph' j = if j = i then .answered else ph j) :
    TInv ph' enq (tr ++ [⟨.receiver, .release (.result i)⟩, ⟨.user i, .acquire (.result i)⟩]) := by
  rw [show ∀ a b : Entry, tr ++ [a, b] = tr ++ [a] ++ [b] by simp]
  have h1 := (h.sync (e := ⟨.receiver, .release (.result i)⟩) (.inl ⟨_, rfl⟩)).sync (e := ⟨.user i, .acquire (.result i)⟩) (.inr ⟨_, rfl⟩)
  constructor
  · exact h1.free
  · intro k x hk j ha
    rw [hp]; split
    · simp
    · exact h1.dom k x hk j ha
  · intro j hj k x hk ha
    rw [hp] at hj; split at hj
    · simp at hj
    · exact h1.wr j hj k x hk ha
  · intro j hj k x hk ha
    rw [hp] at hj; split at hj
    · simp at hj
    · exact h1.rd j hj k x hk ha
  · intro j hj k x hk ha
    rw [hp] at hj; split at hj
    · simp at hj
    · exact h1.snd j hj k x hk ha
  · intro j hj k x hk ha
    rw [hp] at hj; split at hj
    · next hji =>
      subst hji
      rcases get_snoc hk with ⟨-, rfl⟩ | ⟨-, hk⟩
      · exact absurd ha (no_acc_sync (.inr ⟨_, rfl⟩) j)
      rcases get_snoc hk with ⟨-, rfl⟩ | ⟨-, hk⟩
      · exact absurd ha (no_acc_sync (.inl ⟨_, rfl⟩) j)
      exact ((h.snd j hi k x hk ha).release rfl).acquire rfl
    · exact h1.ans j hj k x hk ha

/-- Where a call is. -/
def phaseOf (s : DirectClient.State ρ) (i : Nat) : Phase :=
  match s.calls[i]? with
  | none => .absent
  | some c => match c.got with
    | some (.response _) => .answered
    | some _ => .over
    | none => match s.disp with
      | .sending j _ => if j = i then .sending else .pending
      | _ => .pending

structure RInv (ttl : Nat) (evs : List (Ev ρ)) (s : State ρ) : Prop where
  base : Inv ttl evs s.inner
  tr : TInv (phaseOf s.inner) (· ∈ s.enq) s.trace
  q1 : ∀ i ∈ s.inner.queue, i ∈ s.enq ∧ i ∉ s.sent
  q2 : s.inner.queue.Nodup
  q3 : ∀ i ∈ s.enq, i < s.inner.calls.length
  q4 : ∀ i ∈ s.sent, i ∈ s.enq
  hon : ∀ i, phaseOf s.inner i = .sending ∨ phaseOf s.inner i = .answered → i ∈ s.sent
  wait : ∀ (i : Nat) (c : Call ρ), s.inner.calls[i]? = some c → c.got ≠ none → i ∈ s.enq
  aw : ∀ (i : Nat) (c : Call ρ), s.inner.calls[i]? = some c → c.awaiting = true → i ∈ s.enq

theorem rinv_start (ttl : Nat) : RInv ttl [] (start : State ρ) := by
  refine ⟨calm_inv ttl [] _ .init, ?_, ?_, ?_, ?_, ?_, ?_, ?_, ?_⟩
  · have : phaseOf (start : State ρ).inner = fun _ => .absent := by funext i; simp [phaseOf, start, DirectClient.init]
    rw [this]; exact TInv.nil _
  all_goals simp [start, DirectClient.init, phaseOf]

/-- The events of the client in a run. -/
def evsOf : Act ρ → List (Ev ρ)
  | .ev e => [e]
  | _ => []

theorem phase_calls {s s' : DirectClient.State ρ} (h1 : s'.calls = s.calls) (h2 : s'.disp = s.disp) : phaseOf s' = phaseOf s := by
  funext i; simp only [phaseOf, h1, h2]

set_option maxHeartbeats 4000000 in
theorem rinv_ev {ttl : Nat} {evs : List (Ev ρ)} {s : State ρ} {e : Ev ρ} {m : DirectClient.State ρ} (h : RInv ttl evs s) (hc : Careful s (.ev e)) (hio : inOrder s.enq e = true)
    (hm : DirectClient.step ttl s.inner e = some m) :
    RInv ttl (evs ++ [e]) { inner := m, enq := s.enq ++ put e, sent := s.sent ++ taken s.inner e, trace := s.trace ++ effects s.inner e } := by
  have hbase : Inv ttl (evs ++ [e]) m := by
    refine inv_step ttl evs s.inner m e h.base hm ?_ ?_ ?_
    · rintro rfl; exact hc
    · rintro u now rfl; exact hc
    · rintro u x rfl i c hic hcl hu
      have := hc i c hic hu
      rcases hcl with hcl | hcl
      · exact this.2.1 hcl
      · exact this.2.2 hcl
  have hput : (∀ i, e ≠ .enqueue i) → s.enq ++ put e = s.enq := by
    intro hne
    cases e with
    | enqueue i => exact absurd rfl (hne i)
    | _ => simp [put]
  obtain ⟨base, tr, q1, q2, q3, q4, hon, wait, aw⟩ := h
  have hup := base.up
  unfold DirectClient.step at hm
  rw [if_neg (by simp [hup])] at hm
  cases e with
  | sendFail => exact hc.elim
  | reportFail => rw [base.sender] at hm; cases hm
  | readClosed i =>
    simp only at hm
    split at hm
    · cases hm
    · next c hci =>
      split at hm
      · next hh => exact absurd (base.cl i c hci hh.2.2).1 (by simpa using hh.2.1)
      · cases hm
  | sendOk =>
    rw [hput (fun i h => by cases h)]
    simp only at hm
    split at hm
    · next i q hs hq =>
      simp only [Option.some.injEq] at hm
      obtain ⟨e1, e2, e3⟩ : m.calls = s.inner.calls ∧ m.disp = s.inner.disp ∧ m.queue = q := by subst hm; exact ⟨rfl, rfl, rfl⟩
      have hph : phaseOf m = phaseOf s.inner := phase_calls e1 e2
      have hi := q1 i (by rw [hq]; simp)
      rw [hq, List.nodup_cons] at q2
      refine ⟨hbase, ?_, ?_, by dsimp only; rw [e3]; exact q2.2, by dsimp only; rw [e1]; exact q3, ?_, ?_, by dsimp only; rw [e1]; exact wait, by dsimp only; rw [e1]; exact aw⟩
      · simp only [effects, hq]
        rw [hph]
        refine tr.send ?_ hi.1
        have hlt := q3 i hi.1
        have hn : phaseOf s.inner i ≠ .absent := by
          unfold phaseOf
          rw [List.getElem?_eq_getElem hlt]
          dsimp only
          split <;> try simp
          split <;> try simp
          split <;> simp
        have h1 : phaseOf s.inner i ≠ .sending := fun h => hi.2 (hon i (.inl h))
        have h2 : phaseOf s.inner i ≠ .answered := fun h => hi.2 (hon i (.inr h))
        cases hx : phaseOf s.inner i <;> simp_all
      · intro j hj
        dsimp only at hj; rw [e3] at hj
        have hj' := q1 j (by rw [hq]; exact List.mem_cons_of_mem _ hj)
        refine ⟨hj'.1, ?_⟩
        simp only [taken, hq, List.mem_append, not_or]
        refine ⟨hj'.2, ?_⟩
        simp
        rintro rfl; exact q2.1 hj
      · intro j hj
        simp only [taken, hq, List.mem_append] at hj
        rcases hj with hj | hj
        · exact q4 j hj
        · simp at hj; subst hj; exact hi.1
      · intro j hj
        rw [hph] at hj
        exact List.mem_append_left _ (hon j hj)
    · cases hm
  | enqueue i =>
    rw [show put (Ev.enqueue i : Ev ρ) = [i] from rfl]
    simp only [inOrder, decide_eq_true_eq] at hio
    simp only at hm
    split at hm
    · next hh =>
      simp only [Option.some.injEq] at hm
      obtain ⟨e1, e2, e3⟩ : m.calls = s.inner.calls ∧ m.disp = s.inner.disp ∧ m.queue = s.inner.queue ++ [i] := by subst hm; exact ⟨rfl, rfl, rfl⟩
      have hph : phaseOf m = phaseOf s.inner := phase_calls e1 e2
      have hns : i ∉ s.sent := fun h => hio (q4 i h)
      refine ⟨hbase, ?_, ?_, ?_, ?_, ?_, ?_, ?_, ?_⟩
      · simp only [effects]
        rw [hph]
        refine tr.enqueue ⟨fun h => hns (hon i (.inr h)), fun h => hns (hon i (.inl h))⟩ fun j hj => ?_
        simp at hj; exact hj.symm
      · intro j hj
        simp only [taken, List.append_nil]
        dsimp only at hj; rw [e3] at hj
        rcases List.mem_append.1 hj with hj | hj
        · exact ⟨List.mem_append_left _ (q1 j hj).1, (q1 j hj).2⟩
        · simp at hj; subst hj; exact ⟨by simp, hns⟩
      · dsimp only; rw [e3, List.nodup_append]
        refine ⟨q2, by simp, fun a ha b hb => ?_⟩
        simp at hb; subst hb; rintro rfl; exact hio (q1 a ha).1
      · intro j hj
        dsimp only at hj ⊢; rw [e1]
        rcases List.mem_append.1 hj with hj | hj
        · exact q3 j hj
        · simp at hj; subst hj; exact hh.1
      · intro j hj
        simp only [taken, List.append_nil] at hj
        exact List.mem_append_left _ (q4 j hj)
      · intro j hj
        rw [hph] at hj
        simp only [taken, List.append_nil]
        exact hon j hj
      · dsimp only; rw [e1]; exact fun j c hj hg => List.mem_append_left _ (wait j c hj hg)
      · dsimp only; rw [e1]; exact fun j c hj hg => List.mem_append_left _ (aw j c hj hg)
    · cases hm
  | await i =>
    rw [hput (fun i h => by cases h)]
    simp only [inOrder, decide_eq_true_eq] at hio
    simp only at hm
    split at hm
    · cases hm
    · next c hci =>
      simp only [Option.some.injEq] at hm
      obtain ⟨e1, e2, e3⟩ : m.calls = s.inner.calls.set i { c with awaiting := true } ∧ m.disp = s.inner.disp ∧ m.queue = s.inner.queue := by subst hm; exact ⟨rfl, rfl, rfl⟩
      have hph : phaseOf m = phaseOf s.inner := by
        funext j; simp only [phaseOf, e1, e2]; grind
      refine ⟨hbase, ?_, ?_, by dsimp only; rw [e3]; exact q2, ?_, ?_, ?_, ?_, ?_⟩
      · simp only [effects, List.append_nil]
        rw [hph]; exact tr
      · dsimp only; rw [e3]; simpa only [taken, List.append_nil] using q1
      · dsimp only; rw [e1]; simpa using q3
      · simpa only [taken, List.append_nil] using q4
      · rw [hph]; simpa only [taken, List.append_nil] using hon
      · dsimp only; rw [e1]; grind
      · dsimp only; rw [e1]; grind
  | call u now =>
    rw [hput (fun i h => by cases h)]
    simp only [Option.some.injEq] at hm
    obtain ⟨e1, e2, e3⟩ : m.calls = s.inner.calls ++ [{ uuid := u, start := now, closed := false, awaiting := false, got := none }] ∧ m.disp = s.inner.disp ∧ m.queue = s.inner.queue := by subst hm; exact ⟨rfl, rfl, rfl⟩
    have hphi : phaseOf s.inner s.inner.calls.length = .absent := by simp [phaseOf]
    have hnd : ∀ x, s.inner.disp ≠ .sending s.inner.calls.length x := by
      intro x hd
      obtain ⟨c, hci, -⟩ := base.dispS _ x hd
      simp at hci
    have hph : ∀ j, phaseOf m j = if j = s.inner.calls.length then .pending else phaseOf s.inner j := by
      intro j
      simp only [phaseOf, e1, e2]
      by_cases hj : j = s.inner.calls.length
      · subst hj
        rw [if_pos rfl]
        simp only [List.getElem?_concat_length]
        cases hd : s.inner.disp with
        | sending k x =>
          dsimp only
          split
          · next hk => subst hk; exact absurd hd (hnd x)
          · rfl
        | _ => rfl
      · rw [if_neg hj]
        have : (s.inner.calls ++ [({ uuid := u, start := now, closed := false, awaiting := false, got := none } : Call ρ)])[j]? = s.inner.calls[j]? := by
          rcases Nat.lt_or_ge j s.inner.calls.length with hl | hl
          · rw [List.getElem?_append_left hl]
          · rw [List.getElem?_eq_none hl, List.getElem?_eq_none (by simp; omega)]
        rw [this]
    have hne : s.inner.calls.length ∉ s.enq := fun h => absurd (q3 _ h) (Nat.lt_irrefl _)
    refine ⟨hbase, ?_, ?_, by dsimp only; rw [e3]; exact q2, ?_, ?_, ?_, ?_, ?_⟩
    · exact tr.call hphi hne hph
    · dsimp only; rw [e3]; simpa only [taken, List.append_nil] using q1
    · intro j hj; have := q3 j hj; dsimp only; rw [e1]; simp; omega
    · simpa only [taken, List.append_nil] using q4
    · intro j hj
      rw [hph] at hj
      simp only [taken, List.append_nil]
      split at hj
      · simp at hj
      · exact hon j hj
    · dsimp only; rw [e1]; grind
    · dsimp only; rw [e1]; grind
  | respond u x =>
    rw [hput (fun i h => by cases h)]
    simp only at hm
    split at hm
    · next hidle =>
      split at hm
      · next hl =>
        simp only [Option.some.injEq] at hm
        subst hm
        refine ⟨hbase, ?_, ?_, q2, q3, ?_, ?_, wait, aw⟩
        · simp only [effects, hl, List.append_nil]; exact tr
        · simpa only [taken, List.append_nil] using q1
        · simpa only [taken, List.append_nil] using q4
        · simpa only [taken, List.append_nil] using hon
      · next i hl =>
        simp only [Option.some.injEq] at hm
        obtain ⟨e1, e2, e3⟩ : m.calls = s.inner.calls ∧ m.disp = .sending i x ∧ m.queue = s.inner.queue := by subst hm; exact ⟨rfl, rfl, rfl⟩
        obtain ⟨c, hci, hcu⟩ := base.look u i hl
        obtain ⟨hsent, hn1, hn2⟩ := hc i c hci hcu
        have hgot : c.got = none := by
          rcases base.held i c hci (by rw [hcu]; exact hl) with hg | hg
          · exact hg.1
          · exact absurd hg hn2
        have hphi : phaseOf s.inner i = .pending := by simp [phaseOf, hci, hgot, hidle]
        have hph : ∀ j, phaseOf m j = if j = i then .sending else phaseOf s.inner j := by
          intro j
          simp only [phaseOf, e1, e2, hidle]
          by_cases hj : j = i
          · subst hj; simp [hci, hgot]
          · rw [if_neg hj]
            have : ¬ i = j := fun h => hj h.symm
            simp [this]
        refine ⟨hbase, ?_, ?_, by dsimp only; rw [e3]; exact q2, by dsimp only; rw [e1]; exact q3, ?_, ?_, by dsimp only; rw [e1]; exact wait, by dsimp only; rw [e1]; exact aw⟩
        · simp only [effects, hl]
          exact tr.respond hphi hph
        · dsimp only; rw [e3]; simpa only [taken, List.append_nil] using q1
        · simpa only [taken, List.append_nil] using q4
        · intro j hj
          rw [hph] at hj
          simp only [taken, List.append_nil]
          split at hj
          · next hji => subst hji; exact hsent
          · exact hon j hj
    · cases hm
  | dispatch =>
    rw [hput (fun i h => by cases h)]
    simp only at hm
    split at hm
    · next i x hd =>
      obtain ⟨c, hci, -, hgot, hcl, -⟩ := base.dispS i x hd
      simp only [deliver, hci] at hm
      rw [if_neg (by simp [hcl])] at hm
      split at hm
      · next haw =>
        simp only [Option.some.injEq] at hm
        obtain ⟨e1, e2, e3⟩ : m.calls = s.inner.calls.set i { c with got := some (.response x) } ∧ m.disp = .closing i ∧ m.queue = s.inner.queue := by subst hm; exact ⟨rfl, rfl, rfl⟩
        have hphi : phaseOf s.inner i = .sending := by simp [phaseOf, hci, hgot, hd]
        have hil : i < s.inner.calls.length := (List.getElem?_eq_some_iff.1 hci).1
        have hph : ∀ j, phaseOf m j = if j = i then .answered else phaseOf s.inner j := by
          intro j
          simp only [phaseOf, e1, e2, hd]
          by_cases hj : j = i
          · subst hj; simp [hil]
          · rw [if_neg hj]
            have : ¬ i = j := fun h => hj h.symm
            simp [this]
        refine ⟨hbase, ?_, ?_, by dsimp only; rw [e3]; exact q2, ?_, ?_, ?_, ?_, ?_⟩
        · simp only [effects, hd, handOver, hci, hcl, Bool.false_eq_true, if_false]
          exact tr.dispatch hphi hph
        · dsimp only; rw [e3]; simpa only [taken, List.append_nil] using q1
        · dsimp only; rw [e1]; simpa using q3
        · simpa only [taken, List.append_nil] using q4
        · intro j hj
          rw [hph] at hj
          simp only [taken, List.append_nil]
          split at hj
          · next hji => subst hji; exact hon j (.inl hphi)
          · exact hon j hj
        · dsimp only; rw [e1]; grind
        · dsimp only; rw [e1]; grind
      · cases hm
    · cases hm
  | close =>
    rw [hput (fun i h => by cases h)]
    simp only at hm
    split at hm
    · next i hd =>
      obtain ⟨c, hci, -, hgot, hcl⟩ := base.dispC i hd
      simp only [hci] at hm
      rw [if_neg (by simp [hcl])] at hm
      simp only [Option.some.injEq] at hm
      obtain ⟨e1, e2, e3⟩ : m.calls = s.inner.calls.set i { c with closed := true } ∧ m.disp = .idle ∧ m.queue = s.inner.queue := by subst hm; exact ⟨rfl, rfl, rfl⟩
      have hil : i < s.inner.calls.length := (List.getElem?_eq_some_iff.1 hci).1
      have hph : phaseOf m = phaseOf s.inner := by
        funext j
        simp only [phaseOf, e1, e2, hd]
        by_cases hj : i = j
        · subst hj; simp only [hci, List.getElem?_set_self hil]
        · simp [hj]
      refine ⟨hbase, ?_, ?_, by dsimp only; rw [e3]; exact q2, ?_, ?_, ?_, ?_, ?_⟩
      · simp only [effects, hd]
        rw [hph]; exact tr.sync (.inl ⟨_, rfl⟩)
      · dsimp only; rw [e3]; simpa only [taken, List.append_nil] using q1
      · dsimp only; rw [e1]; simpa using q3
      · simpa only [taken, List.append_nil] using q4
      · rw [hph]; simpa only [taken, List.append_nil] using hon
      · dsimp only; rw [e1]; grind
      · dsimp only; rw [e1]; grind
    · cases hm
  | visit u now =>
    rw [hput (fun i h => by cases h)]
    simp only at hm
    split at hm
    · split at hm
      · next hl =>
        simp only [Option.some.injEq] at hm
        subst hm
        refine ⟨hbase, ?_, ?_, q2, q3, ?_, ?_, wait, aw⟩
        · simp only [effects, hl, List.append_nil]; exact tr
        · simpa only [taken, List.append_nil] using q1
        · simpa only [taken, List.append_nil] using q4
        · simpa only [taken, List.append_nil] using hon
      · next i hl =>
        split at hm
        · cases hm
        · have : m.calls = s.inner.calls ∧ m.disp = s.inner.disp ∧ m.queue = s.inner.queue := by
            split at hm <;> (simp only [Option.some.injEq] at hm; subst hm; exact ⟨rfl, rfl, rfl⟩)
          obtain ⟨e1, e2, e3⟩ := this
          have hph : phaseOf m = phaseOf s.inner := phase_calls e1 e2
          refine ⟨hbase, ?_, ?_, ?_, ?_, ?_, ?_, ?_, ?_⟩
          · simp only [effects, hl]
            rw [hph]; exact tr.sync (.inr ⟨_, rfl⟩)
          · dsimp only; rw [e3]; simpa only [taken, List.append_nil] using q1
          · dsimp only; rw [e3]; exact q2
          · dsimp only; rw [e1]; exact q3
          · simpa only [taken, List.append_nil] using q4
          · rw [hph]; simpa only [taken, List.append_nil] using hon
          · dsimp only; rw [e1]; exact wait
          · dsimp only; rw [e1]; exact aw
    · cases hm
  | notify =>
    rw [hput (fun i h => by cases h)]
    simp only at hm
    split at hm
    · next i hd =>
      obtain ⟨c, hci, hlk, hgot, hcl, -⟩ := base.clN i hd
      simp only [deliver, hci] at hm
      rw [if_neg (by simp [hcl])] at hm
      split at hm
      · next haw =>
        simp only [Option.some.injEq] at hm
        obtain ⟨e1, e2, e3⟩ : m.calls = s.inner.calls.set i { c with got := some .timeout } ∧ m.disp = s.inner.disp ∧ m.queue = s.inner.queue := by subst hm; exact ⟨rfl, rfl, rfl⟩
        have hil : i < s.inner.calls.length := (List.getElem?_eq_some_iff.1 hci).1
        have hnd : ∀ x, s.inner.disp ≠ .sending i x := by
          intro x h
          obtain ⟨c', hci', hlk', -⟩ := base.dispS i x h
          rw [hci] at hci'; cases hci'
          rw [hlk] at hlk'; cases hlk'
        have hphi : phaseOf s.inner i = .pending := by
          simp only [phaseOf, hci, hgot]
          cases hd' : s.inner.disp with
          | sending k x =>
            dsimp only
            split
            · next hk => subst hk; exact absurd hd' (hnd x)
            · rfl
          | _ => rfl
        have hph : ∀ j, phaseOf m j = if j = i then .over else phaseOf s.inner j := by
          intro j
          simp only [phaseOf, e1, e2]
          by_cases hj : j = i
          · subst hj; simp [hil]
          · rw [if_neg hj]
            have : ¬ i = j := fun h => hj h.symm
            simp [this]
        refine ⟨hbase, ?_, ?_, by dsimp only; rw [e3]; exact q2, ?_, ?_, ?_, ?_, ?_⟩
        · simp only [effects, hd, handOver, hci, hcl, Bool.false_eq_true, if_false]
          rw [show ∀ a b : Entry, s.trace ++ [a, b] = s.trace ++ [a] ++ [b] by simp]
          refine ((tr.sync (e := ⟨.cleanup, .release (.result i)⟩) (.inl ⟨_, rfl⟩)).sync (e := ⟨.user i, .acquire (.result i)⟩) (.inr ⟨_, rfl⟩)).phase fun j => ?_
          rw [hph]
          split
          · next hj => subst hj; exact .inr ⟨hphi, rfl⟩
          · exact .inl rfl
        · dsimp only; rw [e3]; simpa only [taken, List.append_nil] using q1
        · dsimp only; rw [e1]; simpa using q3
        · simpa only [taken, List.append_nil] using q4
        · intro j hj
          rw [hph] at hj
          simp only [taken, List.append_nil]
          split at hj
          · simp at hj
          · exact hon j hj
        · dsimp only; rw [e1]; grind
        · dsimp only; rw [e1]; grind
      · cases hm
    · cases hm
  | delete =>
    rw [hput (fun i h => by cases h)]
    simp only at hm
    split at hm
    · next i hd =>
      split at hm
      · cases hm
      · next c hci =>
        simp only [Option.some.injEq] at hm
        obtain ⟨e1, e2, e3⟩ : m.calls = s.inner.calls ∧ m.disp = s.inner.disp ∧ m.queue = s.inner.queue := by subst hm; exact ⟨rfl, rfl, rfl⟩
        have hph : phaseOf m = phaseOf s.inner := phase_calls e1 e2
        refine ⟨hbase, ?_, ?_, by dsimp only; rw [e3]; exact q2, by dsimp only; rw [e1]; exact q3, ?_, ?_, by dsimp only; rw [e1]; exact wait, by dsimp only; rw [e1]; exact aw⟩
        · simp only [effects, List.append_nil]; rw [hph]; exact tr
        · dsimp only; rw [e3]; simpa only [taken, List.append_nil] using q1
        · simpa only [taken, List.append_nil] using q4
        · rw [hph]; simpa only [taken, List.append_nil] using hon
    · cases hm

/-- The user looks at the request, or changes it. -/
theorem TInv.touch {ph : Nat → Phase} {enq : Nat → Prop} {tr : List Entry} (h : TInv ph enq tr) {i : Nat} {op1 op2 : Op Loc Obj}
    (h1 : op1 = .read (.args i) ∨ op1 = .write (.args i)) (h2 : op2 = .read (.reply i) ∨ op2 = .write (.reply i))
    (hi : ph i = .answered ∨ (ph i = .over ∧ op1 = .read (.args i) ∧ op2 = .read (.reply i))) : TInv ph enq (tr ++ [⟨.user i, op1⟩, ⟨.user i, op2⟩]) := by
  have key : ∀ (tr : List Entry), TInv ph enq tr → ∀ op : Op Loc Obj, (∀ j, acc ⟨.user i, op⟩ j → j = i) → (ph i = .answered ∨ (ph i = .over ∧ ¬ wri ⟨.user i, op⟩ i)) → TInv ph enq (tr ++ [⟨.user i, op⟩]) := by
    intro tr h op hop hi
    refine h.access hop (fun k a hk ha hw => ?_) (fun _ _ => rfl) ?_ ?_ ?_ ?_ ?_
    · rcases hi with hi | ⟨hi, hn⟩
      · exact h.ans i hi k a hk ha
      · rcases hw with hw | hw
        · exact ⟨k, a, hk, (h.wr i (.inr hi) k a hk hw).1, .inl rfl⟩
        · exact absurd hw hn
    · rcases hi with hi | ⟨hi, -⟩ <;> rw [hi] <;> simp
    · rcases hi with hi | ⟨hi, -⟩ <;> rw [hi] <;> simp
    · intro ho
      rcases hi with hi | ⟨hi, hn⟩
      · rw [hi] at ho; cases ho
      · exact ⟨hi, hn⟩
    · intro ho; rcases hi with hi | ⟨hi, hn⟩ <;> rw [hi] at ho <;> cases ho
    · intro ho; exact ⟨rfl, ho⟩
  rw [show ∀ a b : Entry, tr ++ [a, b] = tr ++ [a] ++ [b] by simp]
  refine key _ (key _ h op1 ?_ ?_) op2 ?_ ?_
  · intro j ha; unfold acc at ha; rcases h1 with h1 | h1 <;> subst h1 <;> simp at ha <;> exact ha.symm
  · rcases hi with hi | ⟨hi, h3, h4⟩
    · exact .inl hi
    · refine .inr ⟨hi, ?_⟩; subst h3; unfold wri; simp
  · intro j ha; unfold acc at ha; rcases h2 with h2 | h2 <;> subst h2 <;> simp at ha <;> exact ha.symm
  · rcases hi with hi | ⟨hi, h3, h4⟩
    · exact .inl hi
    · refine .inr ⟨hi, ?_⟩; subst h4; unfold wri; simp

theorem rinv_step {ttl : Nat} {evs : List (Ev ρ)} {s s' : State ρ} {a : Act ρ} (h : RInv ttl evs s) (hc : Careful s a) (hst : step ttl s a = some s') :
    RInv ttl (evs ++ evsOf a) s' := by
  cases a with
  | ev e =>
    simp only [step] at hst
    split at hst
    · cases hst
    · next hio =>
      obtain ⟨m, hm, rfl⟩ := Option.map_eq_some_iff.1 hst
      exact rinv_ev h hc (by simpa using hio) hm
  | read i =>
    simp only [step] at hst
    split at hst
    · cases hst
    · next c hci =>
      split at hst
      · next hg =>
        simp only [Option.some.injEq] at hst
        subst hst
        obtain ⟨base, tr, q1, q2, q3, q4, hon, wait, aw⟩ := h
        refine ⟨by simpa [evsOf] using base, ?_, q1, q2, q3, q4, hon, wait, aw⟩
        refine tr.touch (.inl rfl) (.inl rfl) ?_
        obtain ⟨r, hr⟩ := Option.isSome_iff_exists.1 hg
        cases r with
        | response x => left; simp [phaseOf, hci, hr]
        | sendError => right; simp [phaseOf, hci, hr]
        | timeout => right; simp [phaseOf, hci, hr]
        | closed => right; simp [phaseOf, hci, hr]
      · cases hst
  | reuse i =>
    obtain ⟨c, x, hci, hg⟩ := hc
    simp only [step, hci, hg, Option.isSome_some, if_true, Option.some.injEq] at hst
    subst hst
    obtain ⟨base, tr, q1, q2, q3, q4, hon, wait, aw⟩ := h
    refine ⟨by simpa [evsOf] using base, ?_, q1, q2, q3, q4, hon, wait, aw⟩
    exact tr.touch (.inr rfl) (.inr rfl) (.inl (by simp [phaseOf, hci, hg]))

theorem rinv_run {ttl : Nat} {as : List (Act ρ)} : ∀ {evs : List (Ev ρ)} {s s' : State ρ}, RInv ttl evs s → CarefulRun ttl s as → run ttl s as = some s' → ∃ evs', RInv ttl evs' s' := by
  induction as with
  | nil => intro evs s s' h _ hr; simp [run] at hr; subst hr; exact ⟨_, h⟩
  | cons a as ih =>
    intro evs s s' h hc hr
    simp only [run] at hr
    cases hst : step ttl s a with
    | none => rw [hst] at hr; cases hr
    | some s1 =>
      rw [hst] at hr
      exact ih (rinv_step h hc.1 hst) (hc.2 s1 hst) hr

/-- C126, what holds: in every schedule in which all steps are careful, no two accesses of a call's request race: the caller reads the reply, and may use the request
again. -/
theorem C126_careful_partial {ttl : Nat} {as : List (Act ρ)} {s : State ρ} (hr : run ttl start as = some s) (hc : CarefulRun ttl start as) : RaceFree s.trace := by
  obtain ⟨evs, h⟩ := rinv_run (rinv_start ttl) hc hr
  exact h.tr.free


/-! ### What is not careful -/

/-- From a position on, goroutine `g` releases nothing: nothing of other goroutines happens after it. -/
theorem hb_stuck {tr : List Entry} {i j : Nat} {a b : Entry} (h : HB tr i j) (hi : tr[i]? = some a) (hj : tr[j]? = some b)
    (hst : ∀ (k : Nat) (e : Entry), i ≤ k → tr[k]? = some e → e.g = a.g → ∀ o, e.op ≠ .release o) : b.g = a.g := by
  have key : ∀ i j, HB tr i j → i < j ∧ (∃ b, tr[j]? = some b) ∧ ∀ a, tr[i]? = some a → (∀ (k : Nat) (e : Entry), i ≤ k → tr[k]? = some e → e.g = a.g → ∀ o, e.op ≠ .release o) →
      ∀ b, tr[j]? = some b → b.g = a.g := by
    intro i j h
    induction h with
    | program hlt h1 h2 hg => refine ⟨hlt, ⟨_, h2⟩, fun a ha _ b hb => ?_⟩; rw [h1] at ha; rw [h2] at hb; cases ha; cases hb; exact hg.symm
    | sync hlt h1 h2 hr _ =>
      refine ⟨hlt, ⟨_, h2⟩, fun a ha hs b hb => ?_⟩
      rw [h1] at ha; cases ha
      exact absurd hr (hs _ _ (Nat.le_refl _) h1 rfl _)
    | @trans i j k _ _ ih1 ih2 =>
      obtain ⟨l1, ⟨x, hx⟩, g1⟩ := ih1
      obtain ⟨l2, e2, g2⟩ := ih2
      refine ⟨Nat.lt_trans l1 l2, e2, fun a ha hs b hb => ?_⟩
      have e := g1 a ha hs x hx
      rw [← e]
      exact g2 x hx (fun k' e' hk he hg o => hs k' e' (by omega) he (by rw [hg, e]) o) b hb
  exact (key i j h).2.2 a hi hst b hj

/-- C126 fails: the call times out and returns; before the cleanup has removed it a late response arrives; while the caller looks at the request, the client writes its reply. -/
theorem C126_late_response_refuted (ttl now : Nat) (u : Str) (x : ρ) :
    ∃ s, run ttl start [.ev (.call u now), .ev (.enqueue 0), .ev (.await 0), .ev .sendOk, .ev (.visit u (now + ttl)), .ev .notify, .ev (.respond u x), .read 0] = some s ∧
      s.inner.calls.map (·.got) = [some .timeout] ∧ ¬ RaceFree s.trace := by
  refine ⟨⟨⟨[⟨u, now, false, true, some .timeout⟩], [], [], .sending 0 x, .idle, .deleting 0, false⟩, [0], [0],
    [⟨.user 0, .write (.args 0)⟩, ⟨.user 0, .write (.reply 0)⟩, ⟨.user 0, .release (.entry 0)⟩, ⟨.user 0, .release (.queued 0)⟩,
     ⟨.sender, .acquire (.queued 0)⟩, ⟨.sender, .read (.args 0)⟩, ⟨.sender, .release (.wire 0)⟩, ⟨.cleanup, .acquire (.entry 0)⟩,
     ⟨.cleanup, .release (.result 0)⟩, ⟨.user 0, .acquire (.result 0)⟩,
     ⟨.receiver, .acquire (.entry 0)⟩, ⟨.receiver, .acquire (.wire 0)⟩, ⟨.receiver, .write (.reply 0)⟩, ⟨.user 0, .read (.args 0)⟩, ⟨.user 0, .read (.reply 0)⟩]⟩, ?_, rfl, ?_⟩
  · simp [run, step, start, DirectClient.init, DirectClient.step, inOrder, put, taken, effects, deliver, handOver, GoMap.insert, GoMap.lookup, GoMap.erase]
  · intro hrf
    have hb := hrf 12 14 _ _ (by omega) rfl rfl ⟨.reply 0, .inl ⟨rfl, .inl rfl⟩⟩
    have := hb_stuck hb rfl rfl (by
      intro k e hk he hg o
      rcases k with _ | _ | _ | _ | _ | _ | _ | _ | _ | _ | _ | _ | _ | _ | _ | k <;> simp at he hk <;> subst he <;> simp at hg ⊢)
    simp at this

/-- C126 fails: a server that guesses the id of a call responds before the request is sent; the caller gets the response and uses the request again, while the client reads it to
send it (and sends the new contents under the old call's id, or a mixture). -/
theorem C126_early_response_refuted (ttl now : Nat) (u : Str) (x : ρ) :
    ∃ s, run ttl start [.ev (.call u now), .ev (.enqueue 0), .ev (.await 0), .ev (.respond u x), .ev .dispatch, .reuse 0, .ev .sendOk] = some s ∧
      s.inner.calls.map (·.got) = [some (.response x)] ∧ ¬ RaceFree s.trace := by
  refine ⟨⟨⟨[⟨u, now, false, true, some (.response x)⟩], [], [], .closing 0, .idle, .idle, false⟩, [0], [0],
    [⟨.user 0, .write (.args 0)⟩, ⟨.user 0, .write (.reply 0)⟩, ⟨.user 0, .release (.entry 0)⟩, ⟨.user 0, .release (.queued 0)⟩,
     ⟨.receiver, .acquire (.entry 0)⟩, ⟨.receiver, .acquire (.wire 0)⟩, ⟨.receiver, .write (.reply 0)⟩, ⟨.receiver, .release (.result 0)⟩, ⟨.user 0, .acquire (.result 0)⟩,
     ⟨.user 0, .write (.args 0)⟩, ⟨.user 0, .write (.reply 0)⟩, ⟨.sender, .acquire (.queued 0)⟩, ⟨.sender, .read (.args 0)⟩, ⟨.sender, .release (.wire 0)⟩]⟩, ?_, rfl, ?_⟩
  · simp [run, step, start, DirectClient.init, DirectClient.step, inOrder, put, taken, effects, deliver, handOver, GoMap.insert, GoMap.lookup, GoMap.erase]
  · intro hrf
    have hb := hrf 9 12 _ _ (by omega) rfl rfl ⟨.args 0, .inl ⟨rfl, .inl rfl⟩⟩
    have := hb_stuck hb rfl rfl (by
      intro k e hk he hg o
      rcases k with _ | _ | _ | _ | _ | _ | _ | _ | _ | _ | _ | _ | _ | _ | k <;> simp at he hk <;> subst he <;> simp at hg ⊢)
    simp at this

/-- C126 fails: the request is still in the client's channel (the stream to the server is stuck) when the call times out; the caller uses it again, while the client reads it to
send it. -/
theorem C126_timeout_in_queue_refuted (ttl now : Nat) (u : Str) :
    ∃ s : State ρ, run ttl start [.ev (.call u now), .ev (.enqueue 0), .ev (.await 0), .ev (.visit u (now + ttl)), .ev .notify, .ev .delete, .reuse 0, .ev .sendOk] = some s ∧
      s.inner.calls.map (·.got) = [some .timeout] ∧ ¬ RaceFree s.trace := by
  refine ⟨⟨⟨[⟨u, now, false, true, some .timeout⟩], [], [], .idle, .idle, .idle, false⟩, [0], [0],
    [⟨.user 0, .write (.args 0)⟩, ⟨.user 0, .write (.reply 0)⟩, ⟨.user 0, .release (.entry 0)⟩, ⟨.user 0, .release (.queued 0)⟩,
     ⟨.cleanup, .acquire (.entry 0)⟩, ⟨.cleanup, .release (.result 0)⟩, ⟨.user 0, .acquire (.result 0)⟩,
     ⟨.user 0, .write (.args 0)⟩, ⟨.user 0, .write (.reply 0)⟩, ⟨.sender, .acquire (.queued 0)⟩, ⟨.sender, .read (.args 0)⟩, ⟨.sender, .release (.wire 0)⟩]⟩, ?_, rfl, ?_⟩
  · simp [run, step, start, DirectClient.init, DirectClient.step, inOrder, put, taken, effects, deliver, handOver, GoMap.insert, GoMap.lookup, GoMap.erase]
  · intro hrf
    have hb := hrf 7 10 _ _ (by omega) rfl rfl ⟨.args 0, .inl ⟨rfl, .inl rfl⟩⟩
    have := hb_stuck hb rfl rfl (by
      intro k e hk he hg o
      rcases k with _ | _ | _ | _ | _ | _ | _ | _ | _ | _ | _ | _ | k <;> simp at he hk <;> subst he <;> simp at hg ⊢)
    simp at this

/-! A careful run: two calls; the first gets a response, its request is used for the second (here: changed); the second times out. -/
namespace Ex
def as : List (Act Nat) := [.ev (.call [1] 0), .ev (.enqueue 0), .ev (.await 0), .ev .sendOk, .ev (.respond [1] 7), .ev .dispatch, .read 0, .reuse 0, .ev .close,
  .ev (.call [2] 3), .ev (.enqueue 1), .ev .sendOk, .ev (.await 1), .ev (.visit [2] 13), .ev .notify, .read 1, .ev .delete, .ev (.respond [2] 8)]

theorem careful : CarefulRun 10 start as := by
  simp [as, CarefulRun, Careful, step, start, DirectClient.init, DirectClient.step, inOrder, put, taken, deliver, GoMap.insert, GoMap.lookup, GoMap.erase]
  grind

example : ∃ s, run 10 start as = some s ∧ s.inner.calls.map (·.got) = [some (.response 7), some .timeout] ∧ s.trace.length = 29 ∧ RaceFree s.trace :=
  ⟨_, rfl, rfl, rfl, C126_careful_partial rfl careful⟩
end Ex

end Resmix.Rrpc.DirectRace
