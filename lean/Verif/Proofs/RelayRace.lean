import Verif.Model.RelayRace
import Verif.Proofs.OwnLe
import Mathlib.Tactic.Tauto
set_option autoImplicit false
namespace Resmix.Rrpc.RelayRace
open Resmix.Race

abbrev Gh := Ghost Gor Loc Obj

/-- Who holds what in a state. -/
structure Claims (s : State) (γ : Gh) : Prop where
  rq : ∀ (p h : Nat), s.rqsts[p]? = some h → Kn γ (.gor (.handler h)) (.rqst p)
  qu : ∀ p i, (p, i) ∈ s.queue → Kn γ (.obj (.toSend p)) (.rqst p)
  re : ∀ (m : Nat), s.resps[m]? = some true → γ.st (.resp m) = .excl (.obj (.output m))
  ou : ∀ (q : Nat) o, s.outs[q]? = some o → o.waiting = true → Kn γ (.obj (.back q)) (.out q)
  oi : ∀ (q : Nat) o, s.outs[q]? = some o → o.waiting = true → ∀ m ∈ o.inner.toList, Kn γ (.obj (.back q)) (.resp m)

/-- What is untouched. -/
structure Fresh (s : State) (γ : Gh) : Prop where
  pf : ∀ p, s.rqsts.length ≤ p → γ.st (.rqst p) = .fresh
  rr : ∀ m, s.resps.length ≤ m → γ.st (.resp m) = .fresh
  oo : ∀ q, s.outs.length ≤ q → γ.st (.out q) = .fresh

theorem Claims.le {s : State} {γ γ' : Gh} {P : Loc → Prop} (h : Claims s γ) (le : Le P γ γ') (hP : ∀ l, P l → γ.st l = .fresh) : Claims s γ' := by
  have ex : ∀ {l : Loc} {o}, γ.st l = .excl o → γ'.st l = .excl o := fun e => le.excl (fun c => by rw [hP _ c] at e; cases e) e
  have kn : ∀ {l : Loc} {o}, Kn γ o l → Kn γ' o l := fun e => le.kn (fun c => by obtain ⟨b, hb⟩ := e.1; rw [hP _ c] at hb; cases hb) e
  exact ⟨fun u r e => kn (h.rq u r e), fun c x e => kn (h.qu c x e), fun m e => ex (h.re m e), fun q o e w => kn (h.ou q o e w), fun q o e w m hm => kn (h.oi q o e w m hm)⟩

theorem Claims.refl_le {s : State} {γ γ' : Gh} (h : Claims s γ) (le : Le (fun _ => False) γ γ') : Claims s γ' := h.le le (fun _ h => h.elim)

theorem Fresh.le {s : State} {γ γ' : Gh} (h : Fresh s γ) (le : Le (fun _ => False) γ γ') : Fresh s γ' :=
  ⟨fun c hc => le.fresh id (h.pf c hc), fun c hc => le.fresh id (h.rr c hc), fun c hc => le.fresh id (h.oo c hc)⟩

theorem get_one {α : Type} {l : List α} {a x : α} {i : Nat} (h : (l ++ [a])[i]? = some x) : l[i]? = some x ∨ (i = l.length ∧ x = a) := by
  grind

theorem get_set {α : Type} {l : List α} {i j : Nat} {a b : α} (h : (l.set i a)[j]? = some b) : (i = j ∧ b = a) ∨ (i ≠ j ∧ l[j]? = some b) := by
  grind

theorem snoc2 {α : Type} (l : List α) (a b : α) : l ++ [a, b] = l ++ [a] ++ [b] := by simp
theorem snoc3 {α : Type} (l : List α) (a b c : α) : l ++ [a, b, c] = l ++ [a] ++ [b] ++ [c] := by simp
theorem snoc5 {α : Type} (l : List α) (a b c d e : α) : l ++ [a, b, c, d, e] = l ++ [a] ++ [b] ++ [c] ++ [d] ++ [e] := by simp

/-- A goroutine makes a response and passes it on. -/
theorem make_out {γ : Gh} {tr : List Entry} (hS : Sound γ tr) (g : Gor) (q : Nat) (hfr : γ.st (.out q) = .fresh) :
    ∃ γ', Le (fun l => l = .out q) γ γ' ∧ Kn γ' (.obj (.back q)) (.out q) ∧ (∀ l, l ≠ .out q → Kn γ (.gor g) l → Kn γ' (.obj (.back q)) l) ∧
      Sound γ' (tr ++ [⟨g, .write (.out q)⟩] ++ [⟨g, .release (.back q)⟩]) := by
  have hS1 := hS.newFrozen (g := g) hfr
  have le1 := Le.freeze (γ := γ) (.out q) true (.gor g)
  have k1 := Kn.freeze (γ := γ) (.out q) (.gor g) true
  refine ⟨_, le1.trans (Le.tell g (.back q)) (R := fun l => l = .out q) (fun _ h => h) (fun _ h => h.elim), k1.tell (.back q), ?_, hS1.tell g (.back q)⟩
  intro l hl hk
  exact (le1.kn hl hk).tell (.back q)

/-- The relay's goroutine receives a response and reads it. -/
theorem take_resp {s : State} {γ : Gh} (h : Claims s γ) (hf : Fresh s γ) (hS : Sound γ s.trace) (m : Nat) (hm : s.resps[m]? = some true) (tr : List Entry) :
    ∃ γ', Claims { s with resps := s.resps.set m false, trace := tr } γ' ∧ Fresh { s with resps := s.resps.set m false, trace := tr } γ' ∧ Kn γ' (.gor .incoming) (.resp m) ∧
      Sound γ' (s.trace ++ [⟨.incoming, .acquire (.output m)⟩] ++ [⟨.incoming, .read (.resp m)⟩]) := by
  have ho := h.re m hm
  have hS1 := hS.get .incoming ho
  have hS2 := hS1.owner (l := .resp m) (g := .incoming) (e := ⟨.incoming, .read (.resp m)⟩) (by simp [Ghost.set]) rfl (.inl rfl)
  have hS3 := hS2.freeze (l := .resp m) (o := .gor .incoming) (by simp [Ghost.set])
  have le := ((Le.learn (γ := γ) .incoming (.output m)).trans (Le.set (.resp m) (.excl (.gor .incoming))) (R := fun l => l = .resp m) (fun _ h => h.elim) (fun _ h => h)).trans
    (Le.freeze (.resp m) false (.gor .incoming)) (R := fun l => l = .resp m) (fun _ h => h) (fun _ h => h)
  have nk : ∀ {l : Loc} {o}, Kn γ o l → ¬ (l = .resp m) := by rintro l o e rfl; obtain ⟨b, hb⟩ := e.1; rw [ho] at hb; cases hb
  refine ⟨_, ⟨fun p c e => le.kn (nk (h.rq p c e)) (h.rq p c e), fun p c e => le.kn (nk (h.qu p c e)) (h.qu p c e), ?_, fun q o e w => le.kn (nk (h.ou q o e w)) (h.ou q o e w),
    fun q o e w m' hm' => le.kn (nk (h.oi q o e w m' hm')) (h.oi q o e w m' hm')⟩, ⟨fun r hr => le.fresh (by simp) (hf.pf r hr), ?_, fun r hr => le.fresh (by simp) (hf.oo r hr)⟩, Kn.freeze _ _ _, hS3⟩
  · intro m' hm'
    rcases get_set hm' with ⟨-, e⟩ | ⟨hne, hm'⟩
    · cases e
    · exact le.excl (by simp; exact fun e => hne e.symm) (h.re m' hm')
  · intro m' hm'
    have := (List.getElem?_eq_some_iff.1 hm).1
    simp at hm'
    exact le.fresh (by simp; omega) (hf.rr m' hm')

set_option maxHeartbeats 2000000 in
theorem own_step {s s' : State} {γ : Gh} (hs : Step s s') (h : Claims s γ) (hf : Fresh s γ) (hS : Sound γ s.trace) :
    ∃ γ', Claims s' γ' ∧ Fresh s' γ' ∧ Sound γ' s'.trace := by
  cases hs with
  | recv c =>
    have hfr := hf.pf s.rqsts.length (Nat.le_refl _)
    have le := Le.freeze (γ := γ) (.rqst s.rqsts.length) true (.gor (.handler c))
    have h' := h.le le (by rintro l rfl; exact hfr)
    refine ⟨_, ⟨?_, h'.qu, h'.re, h'.ou, h'.oi⟩, ⟨?_, fun m hm => le.fresh (by simp) (hf.rr m hm), fun m hm => le.fresh (by simp) (hf.oo m hm)⟩, hS.newFrozen (g := .handler c) hfr⟩
    · intro p d hp
      rcases get_one hp with hp | ⟨rfl, rfl⟩
      · exact h'.rq p d hp
      · exact Kn.freeze _ _ _
    · intro p hp
      simp at hp
      exact le.fresh (by simp; omega) (hf.pf p (by omega))
  | send p c i hp =>
    obtain ⟨γ1, le1, hS1⟩ := hS.readKn (h.rq p c hp)
    have le2 := Le.tell (γ := γ1) (.handler c) (.toSend p)
    have le := le1.trans le2 (fun _ h => h) (fun _ h => h)
    have k := (le1.kn id (h.rq p c hp)).tell (.toSend p)
    have h' := h.refl_le le
    have f' := hf.le le
    refine ⟨_, ⟨h'.rq, ?_, h'.re, h'.ou, h'.oi⟩, ⟨f'.pf, f'.rr, f'.oo⟩, by dsimp only; rw [snoc2]; exact hS1.tell (.handler c) (.toSend p)⟩
    intro p' i' hm
    rcases List.mem_append.1 hm with hm | hm
    · exact h'.qu p' i' hm
    · cases List.mem_singleton.1 hm; exact k
  | store p c hp =>
    obtain ⟨γ1, le1, hS1⟩ := hS.readKn (h.rq p c hp)
    have le2 := Le.tell (γ := γ1) (.handler c) (.entry p)
    have le := le1.trans le2 (fun _ h => h) (fun _ h => h)
    have h' := h.refl_le le
    have f' := hf.le le
    exact ⟨_, ⟨h'.rq, h'.qu, h'.re, h'.ou, h'.oi⟩, ⟨f'.pf, f'.rr, f'.oo⟩, by dsimp only; rw [snoc2]; exact hS1.tell (.handler c) (.entry p)⟩
  | fail p c hp =>
    obtain ⟨γ1, le1, hS1⟩ := hS.readKn (h.rq p c hp)
    have h1 := h.refl_le le1
    have f1 := hf.le le1
    have hfr := f1.oo s.outs.length (Nat.le_refl _)
    obtain ⟨γ2, le2, k2, -, hS2⟩ := make_out hS1 (.handler c) s.outs.length hfr
    have h2 := h1.le le2 (by rintro l rfl; exact hfr)
    refine ⟨γ2, ⟨h2.rq, h2.qu, h2.re, ?_, ?_⟩, ⟨fun m hm => le2.fresh (by simp) (f1.pf m hm), fun m hm => le2.fresh (by simp) (f1.rr m hm), ?_⟩, by dsimp only; rw [snoc3]; exact hS2⟩
    · intro q o hq hw
      rcases get_one hq with hq | ⟨rfl, rfl⟩
      · exact h2.ou q o hq hw
      · exact k2
    · intro q o hq hw m hm
      rcases get_one hq with hq | ⟨rfl, rfl⟩
      · exact h2.oi q o hq hw m hm
      · simp at hm
    · intro q hq
      simp at hq
      exact le2.fresh (by simp; omega) (f1.oo q (by omega))
  | transmit p i l₁ l₂ hq =>
    have hS1 := hS.learn (.sender i) (.toSend p)
    have le1 := Le.learn (γ := γ) (.sender i) (.toSend p)
    obtain ⟨γ2, le2, hS2⟩ := hS1.readKn ((h.qu p i (by simp [hq])).learn (.sender i))
    have le := le1.trans le2 (fun _ h => h) (fun _ h => h)
    have h' := h.refl_le le
    have f' := hf.le le
    refine ⟨γ2, ⟨h'.rq, ?_, h'.re, h'.ou, h'.oi⟩, ⟨f'.pf, f'.rr, f'.oo⟩, by dsimp only; rw [snoc2]; exact hS2⟩
    intro c' i' hm
    refine h'.qu c' i' ?_
    rw [hq]
    rcases List.mem_append.1 hm with hm | hm <;> simp [hm]
  | receive i =>
    have hfr := hf.rr s.resps.length (Nat.le_refl _)
    have hS1 := hS.new (g := .receiver i) hfr
    have hS2 := hS1.give (g := .receiver i) (.output s.resps.length) (l := .resp s.resps.length) (by simp [Ghost.set])
    have le := ((Le.set (γ := γ) (.resp s.resps.length) (.excl (.gor (.receiver i)))).trans
      (Le.tell (.receiver i) (.output s.resps.length)) (fun _ h => h) (fun _ h => h.elim)).trans (Le.set (.resp s.resps.length) (.excl (.obj (.output s.resps.length)))) (R := fun l => l = .resp s.resps.length)
      (fun _ h => h) (fun _ h => h)
    have h' := h.le le (by rintro l rfl; exact hfr)
    refine ⟨_, ⟨h'.rq, h'.qu, ?_, h'.ou, h'.oi⟩, ⟨fun r hr => le.fresh (by simp) (hf.pf r hr), ?_, fun r hr => le.fresh (by simp) (hf.oo r hr)⟩, by dsimp only; rw [snoc2]; exact hS2⟩
    · intro m hm
      rcases get_one hm with hm | ⟨rfl, -⟩
      · exact h'.re m hm
      · simp [Ghost.set]
    · intro m hm
      simp at hm
      exact le.fresh (by simp; omega) (hf.rr m (by omega))
  | discard m hm =>
    obtain ⟨γ1, a, b, -, hS1⟩ := take_resp h hf hS m hm _
    exact ⟨γ1, a, b, by dsimp only; rw [snoc2]; exact hS1⟩
  | forward m p c hm he hp =>
    obtain ⟨γ1, h1, f1, k1, hS1⟩ := take_resp h hf hS m hm s.trace
    have le0 := Le.learn (γ := γ1) .incoming (.entry p)
    have hS2 := hS1.learn .incoming (.entry p)
    have f2 := f1.le le0
    have h2 := h1.refl_le le0
    have hfr := f2.oo s.outs.length (Nat.le_refl _)
    obtain ⟨γ3, le3, k3, t3, hS3⟩ := make_out hS2 .incoming s.outs.length hfr
    have h3 := h2.le le3 (by rintro l rfl; exact hfr)
    have kr := t3 (.resp m) (by simp) (le0.kn id k1)
    refine ⟨γ3, ⟨h3.rq, h3.qu, h3.re, ?_, ?_⟩, ⟨fun m hm => le3.fresh (by simp) (f2.pf m hm), fun m hm => le3.fresh (by simp) (f2.rr m hm), ?_⟩, by dsimp only; rw [snoc5]; exact hS3⟩
    · intro q o hq hw
      rcases get_one hq with hq | ⟨rfl, rfl⟩
      · exact h3.ou q o hq hw
      · exact k3
    · intro q o hq hw m' hm'
      rcases get_one hq with hq | ⟨rfl, rfl⟩
      · exact h3.oi q o hq hw m' hm'
      · simp at hm'; subst hm'; exact kr
    · intro q hq
      simp at hq
      exact le3.fresh (by simp; omega) (f2.oo q (by dsimp only; omega))
  | clean p hp =>
    have le := Le.learn (γ := γ) .cleanup (.entry p)
    have h' := h.refl_le le
    have f' := hf.le le
    exact ⟨_, ⟨h'.rq, h'.qu, h'.re, h'.ou, h'.oi⟩, ⟨f'.pf, f'.rr, f'.oo⟩, hS.learn .cleanup (.entry p)⟩
  | respond q o ho hw =>
    have hS1 := hS.learn (.responder o.client) (.back q)
    have le1 := Le.learn (γ := γ) (.responder o.client) (.back q)
    obtain ⟨γ2, le2, hS2⟩ := hS1.readKn ((h.ou q o ho hw).learn (.responder o.client))
    obtain ⟨γ3, le3, hS3⟩ : ∃ γ3, Le (fun _ => False) γ2 γ3 ∧ Sound γ3 (s.trace ++ [⟨.responder o.client, .acquire (.back q)⟩] ++ [⟨.responder o.client, .read (.out q)⟩] ++
        (o.inner.toList.map fun m => ⟨.responder o.client, .read (.resp m)⟩)) := by
      have hi := h.oi q o ho hw
      cases hin : o.inner with
      | none => exact ⟨γ2, Le.refl _, by simpa using hS2⟩
      | some m =>
        rw [hin] at hi
        exact hS2.readKn (le2.kn id ((hi m (by simp)).learn (.responder o.client)))
    have le := (le1.trans le2 (fun _ h => h) (fun _ h => h)).trans le3 (fun _ h => h) (fun _ h => h)
    have h' := h.refl_le le
    have f' := hf.le le
    refine ⟨γ3, ⟨h'.rq, h'.qu, h'.re, ?_, ?_⟩, ⟨f'.pf, f'.rr, fun q' hq' => f'.oo q' (by simpa using hq')⟩, by dsimp only; simpa using hS3⟩
    · intro q' o' hq' hw'
      rcases get_set hq' with ⟨-, rfl⟩ | ⟨-, hq'⟩
      · cases hw'
      · exact h'.ou q' o' hq' hw'
    · intro q' o' hq' hw'
      rcases get_set hq' with ⟨-, rfl⟩ | ⟨-, hq'⟩
      · cases hw'
      · exact h'.oi q' o' hq' hw'

theorem Reach.own {s : State} (h : Reach s) : ∃ γ, Claims s γ ∧ Fresh s γ ∧ Sound γ s.trace := by
  induction h with
  | init => exact ⟨Ghost.init, by constructor <;> simp [State.init], by constructor <;> simp [State.init, Ghost.init], Sound.init⟩
  | step s s' _ hs ih =>
    obtain ⟨γ, a, b, c⟩ := ih
    exact own_step hs a b c

end Resmix.Rrpc.RelayRace
