import Verif.Proofs.ServerRaceB
set_option autoImplicit false
namespace Resmix.Rrpc.ServerRace
open Resmix.Race

theorem Link.create {s : State} {γ : Gh} {own : Nat → Nat} (h : Link s γ own) (hS : Sound γ s.trace) (p key : Nat) (q : List Nat) (hq : s.queue = p :: q) (hk : s.parcels[p]? = some key) :
    ∃ γ' own', Link { s with queue := q, tasks := s.tasks ++ [⟨[p], .collecting⟩], open_ := s.open_.insert key s.tasks.length, cur := some s.tasks.length,
                             trace := s.trace ++ [⟨.collector, .acquire (.queued p)⟩, ⟨.collector, .read (.parcel p)⟩, ⟨.collector, .write .map⟩, ⟨.collector, .write (.task s.tasks.length)⟩] } γ' own' ∧
      Sound γ' (s.trace ++ [⟨.collector, .acquire (.queued p)⟩, ⟨.collector, .read (.parcel p)⟩, ⟨.collector, .write .map⟩, ⟨.collector, .write (.task s.tasks.length)⟩]) := by
  have hf := h.q p (by simp [hq])
  have ht0 := h.ft s.tasks.length (Nat.le_refl _)
  have hn := h.qn
  rw [hq, List.nodup_cons] at hn
  have h1 := (hS.get .collector hf).owner (l := .parcel p) (g := .collector) (e := ⟨.collector, .read (.parcel p)⟩) (by simp [Ghost.set]) rfl (.inl rfl)
  have hm : γ.st .map = .fresh ∨ γ.st .map = .excl (.gor .collector) := by
    by_cases e : s.tasks = []
    · exact .inl (h.mf e)
    · exact .inr (h.mp e)
  have h2 : Sound (((γ.learn .collector (.queued p)).set (.parcel p) (.excl (.gor .collector))).set .map (.excl (.gor .collector)))
      (s.trace ++ [⟨.collector, .acquire (.queued p)⟩] ++ [⟨.collector, .read (.parcel p)⟩] ++ [⟨.collector, .write .map⟩]) := by
    rcases hm with hm | hm
    · exact h1.new (by simpa [Ghost.set, Ghost.learn] using hm)
    · have := h1.owner (l := .map) (g := .collector) (e := ⟨.collector, .write .map⟩) (by simpa [Ghost.set, Ghost.learn] using hm) rfl (.inr rfl)
      convert this using 1
      unfold Ghost.set Ghost.learn
      congr 1
      funext l
      by_cases e : l = .map
      · subst e; simp [hm]
      · simp [e]
  have h3 := h2.new (g := .collector) (l := .task s.tasks.length) (by simpa [Ghost.set, Ghost.learn] using ht0)
  rw [snoc4]
  refine ⟨_, fun p' => if p' = p then s.tasks.length else own p', ?_, h3⟩
  generalize hγ : ((((γ.learn .collector (.queued p)).set (.parcel p) (.excl (.gor .collector))).set .map (.excl (.gor .collector))).set (.task s.tasks.length) (.excl (.gor .collector))) = γ'
  have le : Le (fun l => l = .parcel p ∨ l = .map ∨ l = .task s.tasks.length) γ γ' := by
    subst hγ
    exact ((((Le.learn _ _).trans (Le.set _ _) (fun _ h => h.elim) (fun _ h => h)).trans (R := fun l => l = .parcel p ∨ l = .map) (Le.set _ _) (fun _ h => .inl h) (fun _ h => .inr h)).trans (Le.set _ _)
      (fun _ h => h.elim .inl (fun h => .inr (.inl h))) (fun _ h => .inr (.inr h)))
  have np : γ'.st (.parcel p) = .excl (.gor .collector) := by subst hγ; simp [Ghost.set]
  have nm : γ'.st .map = .excl (.gor .collector) := by subst hγ; simp [Ghost.set]
  have nt : γ'.st (.task s.tasks.length) = .excl (.gor .collector) := by subst hγ; simp [Ghost.set]
  have nc : γ'.st (.common s.tasks.length) = .fresh := le.fresh (by simp) (h.fc _ (Nat.le_refl _))
  clear hγ h2 h1 h3
  constructor <;> dsimp only
  · intro p' hp
    exact le.excl (by simp; rintro rfl; exact hn.1 hp) (h.q p' (by simp [hq, hp]))
  · exact hn.2
  · intro t x ht
    rcases get_one ht with ht | ⟨rfl, rfl⟩
    · refine (h.ta t x ht).le le (Notes.refl _ _) (fun p' e => if_neg (by rintro rfl; rw [hf] at e; cases e)) ?_
      rintro l (rfl | rfl | rfl)
      · rw [hf]; simp
      · rcases hm with hm | hm <;> rw [hm] <;> simp
      · rw [ht0]; simp
    · unfold TaskOk; simp [nt, np, nc]
  · refine fun m r hr => (h.re m r hr).le le ?_
    rintro l (rfl | rfl | rfl)
    · rw [hf]; simp
    · rcases hm with hm | hm <;> rw [hm] <;> simp
    · rw [ht0]; simp
  · intro p' hp
    have := h.fp p' hp
    exact le.fresh (by simp; rintro rfl; rw [hf] at this; cases this) this
  · intro t ht
    simp at ht
    exact le.fresh (by simp; omega) (h.ft t (by omega))
  · intro t ht
    simp at ht
    exact le.fresh (by simp) (h.fc t (by omega))
  · intro t ht; exact le.fresh (by simp) (h.fr t ht)
  · intro _; exact nm
  · intro e; simp at e
  · intro k t e
    rw [GoMap.lookup_insert] at e
    split at e
    · rename_i e'
      cases e
      exact ⟨⟨[p], .collecting⟩, p, by simp, rfl, rfl, by rw [e']; exact hk⟩
    · obtain ⟨x, p₀, a, b, c, d⟩ := h.op k t e
      exact ⟨x, p₀, by rw [List.getElem?_append_left (List.getElem?_eq_some_iff.1 a).1]; exact a, b, c, d⟩
  · intro t e
    cases e
    exact ⟨⟨[p], .collecting⟩, by simp, rfl⟩

theorem get_set {α : Type} {l : List α} {i j : Nat} {a b : α} (h : (l.set i a)[j]? = some b) : (i = j ∧ b = a) ∨ (i ≠ j ∧ l[j]? = some b) := by
  grind

theorem set_get {α : Type} {l : List α} {i : Nat} {a b : α} (h : l[i]? = some b) : (l.set i a)[i]? = some a := by
  grind

theorem TaskOk.col {resps : List Resp} {γ : Gh} {own : Nat → Nat} {t : Nat} {x : Task} (h : TaskOk resps γ own t x) (hx : x.phase = .collecting) :
    γ.st (.task t) = .excl (.gor .collector) ∧ ∀ p ∈ x.parcels, γ.st (.parcel p) = .excl (.gor .collector) ∧ own p = t := by
  unfold TaskOk at h; rw [hx] at h; exact h.2

theorem TaskOk.com {resps : List Resp} {γ : Gh} {own : Nat → Nat} {t : Nat} {x : Task} (h : TaskOk resps γ own t x) (hx : x.phase = .collecting ∨ x.phase = .spawned ∨ x.phase = .running) :
    γ.st (.common t) = .fresh := by
  unfold TaskOk at h; rcases hx with hx | hx | hx <;> rw [hx] at h <;> exact h.1

theorem Link.tasks_ne {s : State} {t : Nat} {x : Task} (ht : s.tasks[t]? = some x) : s.tasks ≠ [] := by
  intro e; rw [e] at ht; simp at ht

theorem Link.add {s : State} {γ : Gh} {own : Nat → Nat} (h : Link s γ own) (hS : Sound γ s.trace) (p key t : Nat) (x : Task) (q : List Nat) (hq : s.queue = p :: q)
    (hk : GoMap.lookup s.open_ key = some t) (ht : s.tasks[t]? = some x) :
    ∃ γ' own', Link { s with tasks := s.tasks.set t { x with parcels := x.parcels ++ [p] }, queue := q, cur := some t,
                             trace := s.trace ++ [⟨.collector, .acquire (.queued p)⟩, ⟨.collector, .read (.parcel p)⟩, ⟨.collector, .read .map⟩, ⟨.collector, .write (.task t)⟩] } γ' own' ∧
      Sound γ' (s.trace ++ [⟨.collector, .acquire (.queued p)⟩, ⟨.collector, .read (.parcel p)⟩, ⟨.collector, .read .map⟩, ⟨.collector, .write (.task t)⟩]) := by
  have hf := h.q p (by simp [hq])
  have hn := h.qn
  rw [hq, List.nodup_cons] at hn
  have hm := h.mp (Link.tasks_ne ht)
  obtain ⟨x', p₀, a, hx, c, d⟩ := h.op key t hk
  rw [ht] at a; cases a
  have hc := (h.ta t x ht).col hx
  have h1 := (hS.get .collector hf).owner (l := .parcel p) (g := .collector) (e := ⟨.collector, .read (.parcel p)⟩) (by simp [Ghost.set]) rfl (.inl rfl)
  have h2 := (h1.owner (l := .map) (g := .collector) (e := ⟨.collector, .read .map⟩) (by simpa [Ghost.set, Ghost.learn] using hm) rfl (.inl rfl)).owner (l := .task t) (g := .collector)
    (e := ⟨.collector, .write (.task t)⟩) (by simpa [Ghost.set, Ghost.learn] using hc.1) rfl (.inr rfl)
  rw [snoc4]
  refine ⟨_, fun p' => if p' = p then t else own p', ?_, h2⟩
  generalize hγ : (γ.learn .collector (.queued p)).set (.parcel p) (.excl (.gor .collector)) = γ'
  have le : Le (fun l => l = .parcel p) γ γ' := by
    subst hγ
    exact (Le.learn _ _).trans (Le.set _ _) (fun _ h => h.elim) (fun _ h => h)
  have np : γ'.st (.parcel p) = .excl (.gor .collector) := by subst hγ; simp [Ghost.set]
  clear hγ h2 h1
  have ok : ∀ (t' : Nat) x', s.tasks[t']? = some x' → TaskOk s.resps γ' (fun p' => if p' = p then t else own p') t' x' := fun t' x' ht' =>
    (h.ta t' x' ht').le le (Notes.refl _ _) (fun p' e => if_neg (by rintro rfl; rw [hf] at e; cases e)) (by rintro l rfl; rw [hf]; simp)
  constructor <;> dsimp only
  · intro p' hp
    exact le.excl (by simp; rintro rfl; exact hn.1 hp) (h.q p' (by simp [hq, hp]))
  · exact hn.2
  · intro t' y hy
    rcases get_set hy with ⟨rfl, rfl⟩ | ⟨-, hy⟩
    · have := (ok t x ht).col hx
      unfold TaskOk
      dsimp only
      rw [hx]
      refine ⟨(ok t x ht).com (.inl hx), this.1, fun p' hp => ?_⟩
      rcases List.mem_append.1 hp with hp | hp
      · exact this.2 p' hp
      · rw [List.mem_singleton.1 hp]; exact ⟨np, if_pos rfl⟩
    · exact ok t' y hy
  · refine fun m r hr => (h.re m r hr).le le ?_
    rintro l rfl; rw [hf]; simp
  · intro p' hp
    have := h.fp p' hp
    exact le.fresh (by simp; rintro rfl; rw [hf] at this; cases this) this
  · intro t ht; exact le.fresh (by simp) (h.ft t (by simpa using ht))
  · intro t ht; exact le.fresh (by simp) (h.fc t (by simpa using ht))
  · intro t ht; exact le.fresh (by simp) (h.fr t ht)
  · intro _; exact le.excl (by simp) hm
  · intro e; exact absurd (by simpa using e) (Link.tasks_ne ht)
  · intro k t' e
    obtain ⟨y, p₁, a, b, c', d'⟩ := h.op k t' e
    by_cases e' : t = t'
    · subst e'
      rw [ht] at a; cases a
      refine ⟨_, p₁, set_get ht, hx, ?_, d'⟩
      dsimp only
      rw [List.head?_append, c']; rfl
    · exact ⟨y, p₁, by rw [List.getElem?_set_ne e']; exact a, b, c', d'⟩
  · intro t' e
    cases e
    exact ⟨_, set_get ht, hx⟩

theorem Link.more {s : State} {γ : Gh} {own : Nat → Nat} (h : Link s γ own) (hS : Sound γ s.trace) (t : Nat) (ht : s.cur = some t) :
    Link { s with cur := none, trace := s.trace ++ [⟨.collector, .read (.task t)⟩] } γ own ∧ Sound γ (s.trace ++ [⟨.collector, .read (.task t)⟩]) := by
  obtain ⟨x, hx, hp⟩ := h.cu t ht
  have hc := (h.ta t x hx).col hp
  refine ⟨?_, hS.owner (l := .task t) (g := .collector) hc.1 rfl (.inl rfl)⟩
  exact ⟨h.q, h.qn, h.ta, h.re, h.fp, h.ft, h.fc, h.fr, h.mp, h.mf, h.op, by simp⟩

theorem Link.spawn {s : State} {γ : Gh} {own : Nat → Nat} (h : Link s γ own) (hS : Sound γ s.trace) (t key : Nat) (x : Task) (p₀ : Nat) (hcur : s.cur = some t) (ht : s.tasks[t]? = some x)
    (hp₀ : x.parcels.head? = some p₀) (hk : s.parcels[p₀]? = some key) :
    ∃ γ', Link { s with tasks := s.tasks.set t { x with phase := .spawned }, cur := none, open_ := s.open_.erase key,
                        trace := s.trace ++ [⟨.collector, .read (.task t)⟩, ⟨.collector, .read (.parcel p₀)⟩, ⟨.collector, .write .map⟩, ⟨.collector, .release (.spawn t)⟩] } γ' own ∧
      Sound γ' (s.trace ++ [⟨.collector, .read (.task t)⟩, ⟨.collector, .read (.parcel p₀)⟩, ⟨.collector, .write .map⟩, ⟨.collector, .release (.spawn t)⟩]) := by
  obtain ⟨x', hx', hx⟩ := h.cu t hcur
  rw [ht] at hx'; cases hx'
  have hc := (h.ta t x ht).col hx
  have hm := h.mp (Link.tasks_ne ht)
  have h1 := hS.owner (l := .task t) (g := .collector) (e := ⟨.collector, .read (.task t)⟩) hc.1 rfl (.inl rfl)
  have h2 := h1.owner (l := .parcel p₀) (g := .collector) (e := ⟨.collector, .read (.parcel p₀)⟩) (hc.2 p₀ (List.mem_of_head? hp₀)).1 rfl (.inl rfl)
  have h3 := h2.owner (l := .map) (g := .collector) (e := ⟨.collector, .write .map⟩) hm rfl (.inr rfl)
  have hls : ∀ l ∈ Loc.task t :: x.parcels.map Loc.parcel, γ.st l = .excl (.gor .collector) := by
    intro l hl
    rcases List.mem_cons.1 hl with rfl | hl
    · exact hc.1
    · obtain ⟨p, hp, rfl⟩ := List.mem_map.1 hl
      exact (hc.2 p hp).1
  have h4 := h3.giveAll (.spawn t) hls
  rw [snoc4]
  refine ⟨_, ?_, h4⟩
  generalize hγ : (γ.tell .collector (.spawn t)).setAll (Loc.task t :: x.parcels.map Loc.parcel) (.excl (.obj (.spawn t))) = γ'
  have le : Le (fun l => l ∈ Loc.task t :: x.parcels.map Loc.parcel) γ γ' := by
    subst hγ
    exact (Le.tell _ _).trans (Le.setAll _ _) (fun _ h => h.elim) (fun _ h => h)
  have new : ∀ l ∈ Loc.task t :: x.parcels.map Loc.parcel, γ'.st l = .excl (.obj (.spawn t)) := by
    subst hγ; intro l hl; simp only [Ghost.setAll, if_pos hl]
  clear hγ h1 h2 h3 h4
  constructor <;> dsimp only
  · intro p hp
    have := h.q p hp
    exact le.excl (fun e => by rw [hls _ e] at this; cases this) this
  · exact h.qn
  · intro t' y hy
    rcases get_set hy with ⟨rfl, rfl⟩ | ⟨hne, hy⟩
    · unfold TaskOk
      dsimp only
      exact ⟨le.fresh (by simp) ((h.ta t x ht).com (.inl hx)), new _ (by simp), fun p hp => new _ (by simp [hp])⟩
    · refine (h.ta t' y hy).le le (Notes.refl _ _) (fun _ _ => rfl) fun l hl => ?_
      rw [hls l hl]
      refine ⟨by simp, by rintro rfl; simp at hl, by simp, by simp, fun _ => ⟨?_, ?_⟩⟩
      · rintro rfl
        simp at hl
        exact hne hl.symm
      · rintro p rfl
        simp at hl
        rw [(hc.2 p hl).2]
        exact hne
  · refine fun m r hr => (h.re m r hr).le le fun l hl => ?_
    rw [hls l hl]; simp
  · intro p hp
    have := h.fp p hp
    exact le.fresh (fun e => by rw [hls _ e] at this; cases this) this
  · intro t' ht'
    have := h.ft t' (by simpa using ht')
    exact le.fresh (fun e => by rw [hls _ e] at this; cases this) this
  · intro t' ht'
    have := h.fc t' (by simpa using ht')
    exact le.fresh (fun e => by rw [hls _ e] at this; cases this) this
  · intro m hm'; exact le.fresh (by simp) (h.fr m hm')
  · intro _; exact le.excl (by simp) hm
  · intro e; exact absurd (by simpa using e) (Link.tasks_ne ht)
  · intro k t' e
    rw [GoMap.lookup_erase] at e
    split at e
    · cases e
    · rename_i hne
      obtain ⟨y, p₁, a, b, c', d'⟩ := h.op k t' e
      by_cases e' : t = t'
      · subst e'
        rw [ht] at a; cases a
        rw [hp₀] at c'; cases c'
        rw [hk] at d'; cases d'
        exact absurd rfl hne
      · exact ⟨y, p₁, by rw [List.getElem?_set_ne e']; exact a, b, c', d'⟩
  · intro _ e; cases e

theorem Link.tick {s : State} {γ : Gh} {own : Nat → Nat} (h : Link s γ own) (hS : Sound γ s.trace) (t key : Nat) (x : Task) (hcur : s.cur = none) (hk : GoMap.lookup s.open_ key = some t)
    (ht : s.tasks[t]? = some x) :
    Link { s with tasks := s.tasks.set t { x with phase := .dropped }, open_ := s.open_.erase key,
                  trace := s.trace ++ [⟨.collector, .read .map⟩, ⟨.collector, .read (.task t)⟩, ⟨.collector, .write .map⟩] } γ own ∧
      Sound γ (s.trace ++ [⟨.collector, .read .map⟩, ⟨.collector, .read (.task t)⟩, ⟨.collector, .write .map⟩]) := by
  obtain ⟨x', p₀, a, hx, c, d⟩ := h.op key t hk
  rw [ht] at a; cases a
  have hc := (h.ta t x ht).col hx
  have hm := h.mp (Link.tasks_ne ht)
  have h1 := hS.owner (l := .map) (g := .collector) (e := ⟨.collector, .read .map⟩) hm rfl (.inl rfl)
  have h2 := h1.owner (l := .task t) (g := .collector) (e := ⟨.collector, .read (.task t)⟩) hc.1 rfl (.inl rfl)
  have h3 := h2.owner (l := .map) (g := .collector) (e := ⟨.collector, .write .map⟩) hm rfl (.inr rfl)
  rw [snoc3]
  refine ⟨?_, h3⟩
  constructor <;> dsimp only
  · exact h.q
  · exact h.qn
  · intro t' y hy
    rcases get_set hy with ⟨rfl, rfl⟩ | ⟨hne, hy⟩
    · unfold TaskOk; trivial
    · exact h.ta t' y hy
  · exact h.re
  · exact h.fp
  · intro t' ht'; exact h.ft t' (by simpa using ht')
  · intro t' ht'; exact h.fc t' (by simpa using ht')
  · exact h.fr
  · intro _; exact hm
  · intro e; exact absurd (by simpa using e) (Link.tasks_ne ht)
  · intro k t' e
    rw [GoMap.lookup_erase] at e
    split at e
    · cases e
    · rename_i hne
      obtain ⟨y, p₁, a, b, c', d'⟩ := h.op k t' e
      by_cases e' : t = t'
      · subst e'
        rw [ht] at a; cases a
        rw [c] at c'; cases c'
        rw [d] at d'; cases d'
        exact absurd rfl hne
      · exact ⟨y, p₁, by rw [List.getElem?_set_ne e']; exact a, b, c', d'⟩
  · intro t' e; rw [hcur] at e; cases e

end Resmix.Rrpc.ServerRace
