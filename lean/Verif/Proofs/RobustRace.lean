import Verif.Model.RobustRace
import Verif.Proofs.OwnLe
import Mathlib.Tactic.Tauto
set_option autoImplicit false
namespace Resmix.Rrpc.RobustRace
open Resmix.Race

abbrev Gh := Ghost Gor Loc Obj

/-- Who holds what in a state. -/
structure Claims (s : State) (γ : Gh) : Prop where
  ru : ∀ u r, (u, r) ∈ s.uses → γ.st (.req r) = .excl (.gor (.user u))
  pa : ∀ (c : Nat) x, s.calls[c]? = some x → Kn γ (.gor (.user x.user)) (.parts c)
  li : ∀ c i, (c, i) ∈ s.live → Kn γ (.obj (.live c i)) (.parts c)
  qu : ∀ c i, (c, i) ∈ s.queue → Kn γ (.obj (.sent c i)) (.parts c)
  re : ∀ (m c : Nat), s.resps[m]? = some (c, true) → γ.st (.resp m) = .excl (.obj (.answer m))
  go : ∀ (c : Nat) x, s.calls[c]? = some x → ∀ m ∈ x.got, γ.st (.resp m) = .excl (.gor (.user x.user))
  pb : ∀ p i, (p, i) ∈ s.pubs → Kn γ (.obj (.pub p i)) (.proof p)

/-- What is untouched, and which Requests calls use. -/
structure Fresh (s : State) (γ : Gh) : Prop where
  rf : ∀ r, (∀ u, (u, r) ∉ s.uses) → γ.st (.req r) = .fresh
  pf : ∀ c, s.calls.length ≤ c → γ.st (.parts c) = .fresh
  rr : ∀ m, s.resps.length ≤ m → γ.st (.resp m) = .fresh
  pp : ∀ p, s.proofs ≤ p → γ.st (.proof p) = .fresh
  cu : ∀ (c : Nat) x, s.calls[c]? = some x → (x.user, x.req) ∈ s.uses

theorem Claims.le {s : State} {γ γ' : Gh} {P : Loc → Prop} (h : Claims s γ) (le : Le P γ γ') (hP : ∀ l, P l → γ.st l = .fresh) : Claims s γ' := by
  have ex : ∀ {l : Loc} {o}, γ.st l = .excl o → γ'.st l = .excl o := fun e => le.excl (fun c => by rw [hP _ c] at e; cases e) e
  have kn : ∀ {l : Loc} {o}, Kn γ o l → Kn γ' o l := fun e => le.kn (fun c => by obtain ⟨b, hb⟩ := e.1; rw [hP _ c] at hb; cases hb) e
  exact ⟨fun u r e => ex (h.ru u r e), fun c x e => kn (h.pa c x e), fun c i e => kn (h.li c i e), fun c i e => kn (h.qu c i e), fun m c e => ex (h.re m c e), fun c x e m hm => ex (h.go c x e m hm), fun p i e => kn (h.pb p i e)⟩

theorem get_one {α : Type} {l : List α} {a x : α} {i : Nat} (h : (l ++ [a])[i]? = some x) : l[i]? = some x ∨ (i = l.length ∧ x = a) := by
  grind

theorem get_set {α : Type} {l : List α} {i j : Nat} {a b : α} (h : (l.set i a)[j]? = some b) : (i = j ∧ b = a) ∨ (i ≠ j ∧ l[j]? = some b) := by
  grind

/-- A user writes a Request that nobody else uses. -/
theorem write_req {s : State} {γ : Gh} {tr : List Entry} (h : Claims s γ) (hf : Fresh s γ) (hS : Sound γ tr) (u r : Nat) (hu : ∀ u', (u', r) ∈ s.uses → u' = u) :
    ∃ γ', Le (fun l => l = .req r ∧ γ.st l = .fresh) γ γ' ∧ γ'.st (.req r) = .excl (.gor (.user u)) ∧ Sound γ' (tr ++ [⟨.user u, .write (.req r)⟩]) := by
  by_cases e : ∃ u', (u', r) ∈ s.uses
  · obtain ⟨u', e⟩ := e
    have := hu u' e
    subst this
    exact ⟨γ, (Le.refl γ).trans (Le.refl γ) (fun _ h => h.elim) (fun _ h => h.elim), h.ru u' r e, hS.owner (h.ru u' r e) rfl (.inr rfl)⟩
  · have hfr := hf.rf r (fun u' h' => e ⟨u', h'⟩)
    refine ⟨_, (Le.set _ _).trans (Le.refl _) (fun l hl => ⟨hl, by rw [hl]; exact hfr⟩) (fun _ h => h.elim), by simp [Ghost.set], hS.new hfr⟩

theorem snoc2 {α : Type} (l : List α) (a b : α) : l ++ [a, b] = l ++ [a] ++ [b] := by simp
theorem snoc3 {α : Type} (l : List α) (a b c : α) : l ++ [a, b, c] = l ++ [a] ++ [b] ++ [c] := by simp
theorem snoc4 {α : Type} (l : List α) (a b c d : α) : l ++ [a, b, c, d] = l ++ [a] ++ [b] ++ [c] ++ [d] := by simp

/-- A user does something to a Request, and uses it from now on. -/
theorem Claims.use {s : State} {γ γ' : Gh} (h : Claims s γ) (u r : Nat) (le : Le (fun l => l = .req r ∧ γ.st l = .fresh) γ γ') (e : γ'.st (.req r) = .excl (.gor (.user u))) (tr : List Entry) :
    Claims { s with uses := s.uses ++ [(u, r)], trace := tr } γ' := by
  have h' := h.le le (fun _ hl => hl.2)
  refine ⟨?_, h'.pa, h'.li, h'.qu, h'.re, h'.go, h'.pb⟩
  intro u' r' hm
  rcases List.mem_append.1 hm with hm | hm
  · exact h'.ru u' r' hm
  · cases List.mem_singleton.1 hm; exact e

theorem Fresh.use {s : State} {γ γ' : Gh} (h : Fresh s γ) (u r : Nat) (le : Le (fun l => l = .req r ∧ γ.st l = .fresh) γ γ') (tr : List Entry) :
    Fresh { s with uses := s.uses ++ [(u, r)], trace := tr } γ' := by
  refine ⟨?_, fun c hc => le.fresh (by simp) (h.pf c hc), fun c hc => le.fresh (by simp) (h.rr c hc), fun c hc => le.fresh (by simp) (h.pp c hc), fun c x hc => List.mem_append_left _ (h.cu c x hc)⟩
  intro r' hr
  have hne : r' ≠ r := by rintro rfl; exact hr u (by simp)
  exact le.fresh (by simp [hne]) (h.rf r' (fun u' hu' => hr u' (List.mem_append_left _ hu')))

theorem Fresh.le {s : State} {γ γ' : Gh} (h : Fresh s γ) (le : Le (fun _ => False) γ γ') : Fresh s γ' :=
  ⟨fun c hc => le.fresh id (h.rf c hc), fun c hc => le.fresh id (h.pf c hc), fun c hc => le.fresh id (h.rr c hc), fun c hc => le.fresh id (h.pp c hc), h.cu⟩

theorem Claims.refl_le {s : State} {γ γ' : Gh} (h : Claims s γ) (le : Le (fun _ => False) γ γ') : Claims s γ' := h.le le (fun _ h => h.elim)

set_option maxHeartbeats 2000000 in
theorem own_step {n : Nat} {s s' : State} {γ : Gh} (hs : Step n s s') (hsep : Separate s') (h : Claims s γ) (hf : Fresh s γ) (hS : Sound γ s.trace) :
    ∃ γ', Claims s' γ' ∧ Fresh s' γ' ∧ Sound γ' s'.trace := by
  cases hs with
  | touch u r =>
    obtain ⟨γ', le, e, hS'⟩ := write_req h hf hS u r (fun u' hu' => hsep u' u r (List.mem_append_left _ hu') (by simp))
    exact ⟨γ', h.use u r le e _, hf.use u r le _, hS'⟩
  | call u r =>
    obtain ⟨γ1, le, e, hS1⟩ := write_req h hf hS u r (fun u' hu' => hsep u' u r (List.mem_append_left _ hu') (by simp))
    have h1 := h.use u r le e (s.trace ++ [⟨.user u, .write (.req r)⟩])
    have f1 := hf.use u r le (s.trace ++ [⟨.user u, .write (.req r)⟩])
    have hp := f1.pf s.calls.length (Nat.le_refl _)
    have hS2 := (hS1.newFrozen (g := .user u) hp)
    have le2 := Le.freeze (γ := γ1) (.parts s.calls.length) true (.gor (.user u))
    have h2 := h1.le le2 (by rintro l rfl; exact hp)
    have k2 := Kn.freeze (γ := γ1) (.parts s.calls.length) (.gor (.user u)) true
    refine ⟨_, ?_, ?_, by dsimp only; rw [snoc2]; exact hS2⟩
    · refine ⟨h2.ru, ?_, h2.li, h2.qu, h2.re, ?_, h2.pb⟩
      · intro c x hc
        rcases get_one hc with hc | ⟨rfl, rfl⟩
        · exact h2.pa c x hc
        · exact k2
      · intro c x hc m hm
        rcases get_one hc with hc | ⟨rfl, rfl⟩
        · exact h2.go c x hc m hm
        · cases hm
    · refine ⟨fun c hc => le2.fresh (by simp) (f1.rf c hc), ?_, fun c hc => le2.fresh (by simp) (f1.rr c hc), fun c hc => le2.fresh (by simp) (f1.pp c hc), ?_⟩
      · intro c hc
        simp at hc
        exact le2.fresh (by simp; omega) (f1.pf c (by dsimp only; omega))
      · intro c x hc
        rcases get_one hc with hc | ⟨rfl, rfl⟩
        · exact f1.cu c x hc
        · simp
  | send c x hc hn =>
    obtain ⟨γ1, le1, hS1⟩ := hS.readKn (h.pa c x hc)
    have k1 := (h.refl_le le1).pa c x hc
    have hS2 := hS1.tell (.user x.user) (.live c x.next)
    have hS3 := hS2.tell (.user x.user) (.sent c x.next)
    have le2 := Le.tell (γ := γ1) (.user x.user) (.live c x.next)
    have le3 := Le.tell (γ := γ1.tell (.user x.user) (.live c x.next)) (.user x.user) (.sent c x.next)
    have le := (le1.trans le2 (fun _ h => h) (fun _ h => h)).trans le3 (fun _ h => h) (fun _ h => h)
    have kl := le3.kn id (k1.tell (.live c x.next))
    have ks := (le2.kn id k1).tell (.sent c x.next)
    have h3 := h.refl_le le
    have f3 := hf.le le
    refine ⟨_, ?_, ?_, by dsimp only; rw [snoc3]; exact hS3⟩
    · refine ⟨h3.ru, ?_, ?_, ?_, h3.re, ?_, h3.pb⟩
      · intro c' y hy
        rcases get_set hy with ⟨rfl, rfl⟩ | ⟨-, hy⟩
        · exact h3.pa c x hc
        · exact h3.pa c' y hy
      · intro c' i hm
        rcases List.mem_append.1 hm with hm | hm
        · exact h3.li c' i hm
        · cases List.mem_singleton.1 hm; exact kl
      · intro c' i hm
        rcases List.mem_append.1 hm with hm | hm
        · exact h3.qu c' i hm
        · cases List.mem_singleton.1 hm; exact ks
      · intro c' y hy m hm
        rcases get_set hy with ⟨rfl, rfl⟩ | ⟨-, hy⟩
        · exact h3.go c x hc m hm
        · exact h3.go c' y hy m hm
    · refine ⟨f3.rf, fun c' hc' => f3.pf c' (by simpa using hc'), f3.rr, f3.pp, ?_⟩
      intro c' y hy
      rcases get_set hy with ⟨rfl, rfl⟩ | ⟨-, hy⟩
      · exact f3.cu c x hc
      · exact f3.cu c' y hy
  | closed c x hc hn =>
    obtain ⟨γ1, le1, hS1⟩ := hS.readKn (h.pa c x hc)
    have k1 := (h.refl_le le1).pa c x hc
    have hS2 := hS1.tell (.user x.user) (.live c x.next)
    have le2 := Le.tell (γ := γ1) (.user x.user) (.live c x.next)
    have le := le1.trans le2 (fun _ h => h) (fun _ h => h)
    have kl := k1.tell (.live c x.next)
    have h3 := h.refl_le le
    have f3 := hf.le le
    refine ⟨_, ?_, ?_, by dsimp only; rw [snoc2]; exact hS2⟩
    · refine ⟨h3.ru, ?_, ?_, h3.qu, h3.re, ?_, h3.pb⟩
      · intro c' y hy
        rcases get_set hy with ⟨rfl, rfl⟩ | ⟨-, hy⟩
        · exact h3.pa c x hc
        · exact h3.pa c' y hy
      · intro c' i hm
        rcases List.mem_append.1 hm with hm | hm
        · exact h3.li c' i hm
        · cases List.mem_singleton.1 hm; exact kl
      · intro c' y hy m hm
        rcases get_set hy with ⟨rfl, rfl⟩ | ⟨-, hy⟩
        · exact h3.go c x hc m hm
        · exact h3.go c' y hy m hm
    · refine ⟨f3.rf, fun c' hc' => f3.pf c' (by simpa using hc'), f3.rr, f3.pp, ?_⟩
      intro c' y hy
      rcases get_set hy with ⟨rfl, rfl⟩ | ⟨-, hy⟩
      · exact f3.cu c x hc
      · exact f3.cu c' y hy
  | transmit c i l₁ l₂ hq =>
    have hS1 := hS.learn (.sender i) (.sent c i)
    have le1 := Le.learn (γ := γ) (.sender i) (.sent c i)
    obtain ⟨γ2, le2, hS2⟩ := hS1.readKn ((h.qu c i (by simp [hq])).learn (.sender i))
    have le := le1.trans le2 (fun _ h => h) (fun _ h => h)
    have h3 := h.refl_le le
    have f3 := hf.le le
    refine ⟨γ2, ⟨h3.ru, h3.pa, h3.li, ?_, h3.re, h3.go, h3.pb⟩, ⟨f3.rf, f3.pf, f3.rr, f3.pp, f3.cu⟩, by dsimp only; rw [snoc2]; exact hS2⟩
    intro c' i' hm
    refine h3.qu c' i' ?_
    rw [hq]
    rcases List.mem_append.1 hm with hm | hm <;> simp [hm]
  | answer c i hl =>
    have hfr := hf.rr s.resps.length (Nat.le_refl _)
    have hS1 := hS.new (g := .receiver i) hfr
    have hS2 := hS1.learn (.receiver i) (.live c i)
    have hS3 := hS2.give (g := .receiver i) (.answer s.resps.length) (l := .resp s.resps.length) (by simp [Ghost.set, Ghost.learn])
    have le := (((Le.set (γ := γ) (.resp s.resps.length) (.excl (.gor (.receiver i)))).trans (Le.learn (.receiver i) (.live c i)) (fun _ h => h) (fun _ h => h.elim)).trans
      (Le.tell (.receiver i) (.answer s.resps.length)) (fun _ h => h) (fun _ h => h.elim)).trans (Le.set (.resp s.resps.length) (.excl (.obj (.answer s.resps.length)))) (R := fun l => l = .resp s.resps.length)
      (fun _ h => h) (fun _ h => h)
    have h3 := h.le le (by rintro l rfl; exact hfr)
    refine ⟨_, ⟨h3.ru, h3.pa, h3.li, h3.qu, ?_, h3.go, h3.pb⟩, ⟨fun r hr => le.fresh (by simp) (hf.rf r hr), fun r hr => le.fresh (by simp) (hf.pf r hr), ?_, fun r hr => le.fresh (by simp) (hf.pp r hr), hf.cu⟩,
      by dsimp only; rw [snoc3]; exact hS3⟩
    · intro m c' hm
      rcases get_one hm with hm | ⟨rfl, -⟩
      · exact h3.re m c' hm
      · simp [Ghost.set]
    · intro m hm
      simp at hm
      exact le.fresh (by simp; omega) (hf.rr m (by omega))
  | expire c i hl =>
    have hfr := hf.rr s.resps.length (Nat.le_refl _)
    have hS0 := hS.learn (.cleanup i) (.live c i)
    obtain ⟨γ1, le1, hS1⟩ := hS0.readKn ((h.li c i hl).learn (.cleanup i))
    have le0 := (Le.learn (γ := γ) (.cleanup i) (.live c i)).trans le1 (fun _ h => h) (fun _ h => h)
    have hS2 := hS1.new (g := .cleanup i) (l := .resp s.resps.length) (le0.fresh id hfr)
    have hS3 := hS2.give (g := .cleanup i) (.answer s.resps.length) (l := .resp s.resps.length) (by simp [Ghost.set])
    have le := ((le0.trans (Le.set (.resp s.resps.length) (.excl (.gor (.cleanup i)))) (fun _ h => h.elim) (fun _ h => h)).trans
      (Le.tell (.cleanup i) (.answer s.resps.length)) (fun _ h => h) (fun _ h => h.elim)).trans (Le.set (.resp s.resps.length) (.excl (.obj (.answer s.resps.length)))) (R := fun l => l = .resp s.resps.length)
      (fun _ h => h) (fun _ h => h)
    have h3 := h.le le (by rintro l rfl; exact hfr)
    refine ⟨_, ⟨h3.ru, h3.pa, h3.li, h3.qu, ?_, h3.go, h3.pb⟩, ⟨fun r hr => le.fresh (by simp) (hf.rf r hr), fun r hr => le.fresh (by simp) (hf.pf r hr), ?_, fun r hr => le.fresh (by simp) (hf.pp r hr), hf.cu⟩,
      by dsimp only; rw [snoc4]; exact hS3⟩
    · intro m c' hm
      rcases get_one hm with hm | ⟨rfl, -⟩
      · exact h3.re m c' hm
      · simp [Ghost.set]
    · intro m hm
      simp at hm
      exact le.fresh (by simp; omega) (hf.rr m (by omega))
  | take c m x hc hm =>
    have ho := h.re m c hm
    have hS1 := hS.get (.user x.user) ho
    have hS2 := hS1.owner (l := .resp m) (g := .user x.user) (e := ⟨.user x.user, .write (.resp m)⟩) (by simp [Ghost.set]) rfl (.inr rfl)
    have le := (Le.learn (γ := γ) (.user x.user) (.answer m)).trans (Le.set (.resp m) (.excl (.gor (.user x.user)))) (R := fun l => l = .resp m) (fun _ h => h.elim) (fun _ h => h)
    have nk : ∀ {l : Loc} {o}, Kn γ o l → ¬ (l = .resp m) := by rintro l o e rfl; obtain ⟨b, hb⟩ := e.1; rw [ho] at hb; cases hb
    have new : ((γ.learn (.user x.user) (.answer m)).set (.resp m) (.excl (.gor (.user x.user)))).st (.resp m) = .excl (.gor (.user x.user)) := by simp [Ghost.set]
    have ng : ∀ (c' : Nat) y, s.calls[c']? = some y → ∀ m' ∈ y.got, ((γ.learn (.user x.user) (.answer m)).set (.resp m) (.excl (.gor (.user x.user)))).st (.resp m') = .excl (.gor (.user y.user)) := by
      intro c' y hy m' hm'
      have := h.go c' y hy m' hm'
      exact le.excl (by rintro e; cases e; rw [ho] at this; cases this) this
    refine ⟨_, ⟨fun u r hu => le.excl (by simp) (h.ru u r hu), ?_, fun c' i hi => le.kn (nk (h.li c' i hi)) (h.li c' i hi), fun c' i hi => le.kn (nk (h.qu c' i hi)) (h.qu c' i hi), ?_, ?_,
      fun c' i hi => le.kn (nk (h.pb c' i hi)) (h.pb c' i hi)⟩, ⟨fun r hr => le.fresh (by simp) (hf.rf r hr), fun r hr => le.fresh (by simp) (hf.pf r (by simpa using hr)), ?_, fun r hr => le.fresh (by simp) (hf.pp r hr), ?_⟩,
      by dsimp only; rw [snoc2]; exact hS2⟩
    · intro c' y hy
      rcases get_set hy with ⟨rfl, rfl⟩ | ⟨-, hy⟩
      · exact le.kn (nk (h.pa c x hc)) (h.pa c x hc)
      · exact le.kn (nk (h.pa c' y hy)) (h.pa c' y hy)
    · intro m' c' hm'
      rcases get_set hm' with ⟨-, e⟩ | ⟨hne, hm'⟩
      · cases e
      · exact le.excl (by simp; exact fun e => hne e.symm) (h.re m' c' hm')
    · intro c' y hy m' hm'
      rcases get_set hy with ⟨rfl, rfl⟩ | ⟨-, hy⟩
      · rcases List.mem_append.1 hm' with hm' | hm'
        · exact ng c x hc m' hm'
        · cases List.mem_singleton.1 hm'; exact new
      · exact ng c' y hy m' hm'
    · intro m' hm'
      have := (List.getElem?_eq_some_iff.1 hm).1
      simp at hm'
      exact le.fresh (by simp; omega) (hf.rr m' hm')
    · intro c' y hy
      rcases get_set hy with ⟨rfl, rfl⟩ | ⟨-, hy⟩
      · exact hf.cu c x hc
      · exact hf.cu c' y hy
  | finish c x hc =>
    have hu := hf.cu c x hc
    have hS1 := hS.ownerAll (g := .user x.user) (x.got.map (fun m => ⟨.user x.user, .read (.resp m)⟩) ++ [⟨.user x.user, .write (.req x.req)⟩]) (by
      intro e he
      rcases List.mem_append.1 he with he | he
      · obtain ⟨m, hm, rfl⟩ := List.mem_map.1 he
        exact ⟨rfl, _, h.go c x hc m hm, .inl rfl⟩
      · rw [List.mem_singleton.1 he]
        exact ⟨rfl, _, h.ru _ _ hu, .inr rfl⟩)
    refine ⟨γ, ⟨?_, h.pa, h.li, h.qu, h.re, h.go, h.pb⟩, ⟨fun r hr => hf.rf r (fun u' hu' => hr u' (List.mem_append_left _ hu')), hf.pf, hf.rr, hf.pp, fun c x hc => List.mem_append_left _ (hf.cu c x hc)⟩, hS1⟩
    intro u r hm
    rcases List.mem_append.1 hm with hm | hm
    · exact h.ru u r hm
    · cases List.mem_singleton.1 hm; exact h.ru _ _ hu
  | publish d dst =>
    have hfr := hf.pp s.proofs (Nat.le_refl _)
    have hS1 := hS.newFrozen (g := .direct d) hfr
    have le1 := Le.freeze (γ := γ) (.proof s.proofs) true (.gor (.direct d))
    have k1 := Kn.freeze (γ := γ) (.proof s.proofs) (.gor (.direct d)) true
    generalize γ.freeze (.proof s.proofs) true (.gor (.direct d)) = γ1 at hS1 le1 k1
    obtain ⟨γ2, le2, k2, hS2⟩ : ∃ γ2, Le (fun _ => False) γ1 γ2 ∧ (∀ i ∈ dst, Kn γ2 (.obj (.pub s.proofs i)) (.proof s.proofs)) ∧
        Sound γ2 (s.trace ++ [⟨.direct d, .write (.proof s.proofs)⟩] ++ dst.map (fun i => ⟨.direct d, .release (.pub s.proofs i)⟩)) := by
      clear le1 hsep
      generalize s.trace ++ [⟨.direct d, .write (.proof s.proofs)⟩] = tr at hS1
      induction dst generalizing γ1 tr with
      | nil => exact ⟨γ1, Le.refl _, by simp, by simpa using hS1⟩
      | cons i dst ih =>
        have lt := Le.tell (γ := γ1) (.direct d) (.pub s.proofs i)
        obtain ⟨γ2, a, b, e⟩ := ih _ (lt.kn id k1) _ (hS1.tell (.direct d) (.pub s.proofs i))
        refine ⟨γ2, lt.trans a (fun _ h => h) (fun _ h => h), ?_, by simpa using e⟩
        intro j hj
        rcases List.mem_cons.1 hj with rfl | hj
        · exact a.kn id (k1.tell _)
        · exact b j hj
    have le := le1.trans le2 (R := fun l => l = .proof s.proofs) (fun _ h => h) (fun _ h => h.elim)
    have h3 := h.le le (by rintro l rfl; exact hfr)
    refine ⟨γ2, ⟨h3.ru, h3.pa, h3.li, h3.qu, h3.re, h3.go, ?_⟩, ⟨fun r hr => le.fresh (by simp) (hf.rf r hr), fun r hr => le.fresh (by simp) (hf.pf r hr), fun r hr => le.fresh (by simp) (hf.rr r hr), ?_, hf.cu⟩,
      by dsimp only; simpa using hS2⟩
    · intro p i hm
      rcases List.mem_append.1 hm with hm | hm
      · exact h3.pb p i hm
      · obtain ⟨j, hj, e⟩ := List.mem_map.1 hm
        cases e; exact k2 _ hj
    · intro p hp
      dsimp only at hp
      exact le.fresh (by simp; omega) (hf.pp p (by omega))
  | prove p i l₁ l₂ hq =>
    have hS1 := hS.learn (.prover i) (.pub p i)
    have le1 := Le.learn (γ := γ) (.prover i) (.pub p i)
    obtain ⟨γ2, le2, hS2⟩ := hS1.readKn ((h.pb p i (by simp [hq])).learn (.prover i))
    have le := le1.trans le2 (fun _ h => h) (fun _ h => h)
    have h3 := h.refl_le le
    have f3 := hf.le le
    refine ⟨γ2, ⟨h3.ru, h3.pa, h3.li, h3.qu, h3.re, h3.go, ?_⟩, ⟨f3.rf, f3.pf, f3.rr, f3.pp, f3.cu⟩, by dsimp only; rw [snoc2]; exact hS2⟩
    intro c' i' hm
    refine h3.pb c' i' ?_
    rw [hq]
    rcases List.mem_append.1 hm with hm | hm <;> simp [hm]

theorem uses_mono {n : Nat} {s s' : State} (h : Step n s s') : ∀ x ∈ s.uses, x ∈ s'.uses := by
  cases h <;> intro x hx <;> first | exact hx | exact List.mem_append_left _ hx

theorem Separate.of_step {n : Nat} {s s' : State} (h : Step n s s') (hsep : Separate s') : Separate s :=
  fun u u' r h1 h2 => hsep u u' r (uses_mono h _ h1) (uses_mono h _ h2)

theorem Reach.own {n : Nat} {s : State} (h : Reach n s) (hsep : Separate s) : ∃ γ, Claims s γ ∧ Fresh s γ ∧ Sound γ s.trace := by
  induction h with
  | init => exact ⟨Ghost.init, by constructor <;> simp [State.init], by constructor <;> simp [State.init, Ghost.init], Sound.init⟩
  | step s s' _ hs ih =>
    obtain ⟨γ, a, b, c⟩ := ih (hsep.of_step hs)
    exact own_step hs hsep a b c

end Resmix.Rrpc.RobustRace
