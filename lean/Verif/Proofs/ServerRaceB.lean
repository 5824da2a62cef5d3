import Verif.Proofs.ServerRace
set_option autoImplicit false
namespace Resmix.Rrpc.ServerRace
open Resmix.Race

theorem get_one {α : Type} {l : List α} {a x : α} {i : Nat} (h : (l ++ [a])[i]? = some x) : l[i]? = some x ∨ (i = l.length ∧ x = a) := by
  grind

theorem Link.recv {s : State} {γ : Gh} {own : Nat → Nat} (h : Link s γ own) (hS : Sound γ s.trace) (g key : Nat) :
    ∃ γ', Link { s with parcels := s.parcels ++ [key], queue := s.queue ++ [s.parcels.length],
                        trace := s.trace ++ [⟨.stream g, .write (.parcel s.parcels.length)⟩, ⟨.stream g, .release (.queued s.parcels.length)⟩] } γ' own ∧
      Sound γ' (s.trace ++ [⟨.stream g, .write (.parcel s.parcels.length)⟩, ⟨.stream g, .release (.queued s.parcels.length)⟩]) := by
  have hf := h.fp s.parcels.length (Nat.le_refl _)
  have h2 := (hS.new (g := .stream g) hf).give (g := .stream g) (.queued s.parcels.length) (l := .parcel s.parcels.length) (by simp [Ghost.set])
  rw [snoc2]
  refine ⟨_, ?_, h2⟩
  generalize hγ : ((γ.set (.parcel s.parcels.length) (.excl (.gor (.stream g)))).tell (.stream g) (.queued s.parcels.length)).set (.parcel s.parcels.length) (.excl (.obj (.queued s.parcels.length))) = γ'
  have le : Le (· = .parcel s.parcels.length) γ γ' := by
    subst hγ
    exact (((Le.set _ _).trans (Le.tell _ _) (fun _ h => h) (fun _ h => h.elim)).trans (Le.set _ _) (fun _ h => h) (fun _ h => h))
  have new : γ'.st (.parcel s.parcels.length) = .excl (.obj (.queued s.parcels.length)) := by subst hγ; simp [Ghost.set]
  clear hγ h2
  have nq : s.parcels.length ∉ s.queue := fun hm => by have := h.q _ hm; rw [hf] at this; cases this
  constructor <;> dsimp only
  · intro p hp
    rcases List.mem_append.1 hp with hp | hp
    · exact le.excl (by rintro e; cases e; exact nq hp) (h.q p hp)
    · rw [List.mem_singleton.1 hp]; exact new
  · rw [List.nodup_append]; exact ⟨h.qn, by simp, by intro a ha b hb; rw [List.mem_singleton.1 hb]; rintro rfl; exact nq ha⟩
  · exact fun t x ht => (h.ta t x ht).le le (Notes.refl _ _) (fun _ _ => rfl) (by rintro l rfl; rw [hf]; simp)
  · exact fun m r hr => (h.re m r hr).le le (by rintro l rfl; rw [hf]; simp)
  · intro p hp
    simp at hp
    exact le.fresh (by simp; omega) (h.fp p (by omega))
  · intro t ht; exact le.fresh (by simp) (h.ft t ht)
  · intro t ht; exact le.fresh (by simp) (h.fc t ht)
  · intro t ht; exact le.fresh (by simp) (h.fr t ht)
  · intro e; exact le.excl (by simp) (h.mp e)
  · intro e; exact le.fresh (by simp) (h.mf e)
  · intro k t e
    obtain ⟨x, p₀, a, b, c, d⟩ := h.op k t e
    exact ⟨x, p₀, a, b, c, by rw [List.getElem?_append_left (List.getElem?_eq_some_iff.1 d).1]; exact d⟩
  · exact h.cu

theorem Link.refuse {s : State} {γ : Gh} {own : Nat → Nat} (h : Link s γ own) (hS : Sound γ s.trace) (g key : Nat) :
    ∃ γ', Link { s with parcels := s.parcels ++ [key], resps := s.resps ++ [⟨.channel, []⟩],
                        trace := s.trace ++ [⟨.stream g, .write (.parcel s.parcels.length)⟩, ⟨.stream g, .write (.resp s.resps.length)⟩, ⟨.stream g, .release (.back s.resps.length)⟩] } γ' own ∧
      Sound γ' (s.trace ++ [⟨.stream g, .write (.parcel s.parcels.length)⟩, ⟨.stream g, .write (.resp s.resps.length)⟩, ⟨.stream g, .release (.back s.resps.length)⟩]) := by
  have hf := h.fp s.parcels.length (Nat.le_refl _)
  have hr := h.fr s.resps.length (Nat.le_refl _)
  have h2 := ((hS.new (g := .stream g) hf).new (g := .stream g) (l := .resp s.resps.length) (by simpa [Ghost.set] using hr)).give (g := .stream g) (.back s.resps.length)
    (l := .resp s.resps.length) (by simp [Ghost.set])
  rw [snoc3]
  refine ⟨_, ?_, h2⟩
  generalize hγ : (((γ.set (.parcel s.parcels.length) (.excl (.gor (.stream g)))).set (.resp s.resps.length) (.excl (.gor (.stream g)))).tell (.stream g) (.back s.resps.length)).set
    (.resp s.resps.length) (.excl (.obj (.back s.resps.length))) = γ'
  have le : Le (fun l => l = .parcel s.parcels.length ∨ l = .resp s.resps.length) γ γ' := by
    subst hγ
    refine ((((Le.set _ _).trans (Le.set _ _) (fun _ h => .inl h) (fun _ h => .inr h)).trans (Le.tell _ _) (fun _ h => h) (fun _ h => h.elim)).trans (Le.set _ _) (fun _ h => h) (fun _ h => .inr h))
  have new : γ'.st (.resp s.resps.length) = .excl (.obj (.back s.resps.length)) := by subst hγ; simp [Ghost.set]
  clear hγ h2
  have fr : ∀ l, (l = .parcel s.parcels.length ∨ l = .resp s.resps.length) → γ.st l = .fresh := by rintro l (rfl | rfl) <;> assumption
  constructor <;> dsimp only
  · intro p hp
    have := h.q p hp
    exact le.excl (by intro e; rw [fr _ e] at this; cases this) this
  · exact h.qn
  · refine fun t x ht => (h.ta t x ht).le le ?_ (fun _ _ => rfl) (by intro l hl; rw [fr l hl]; rcases hl with rfl | rfl <;> simp)
    intro m r' hm hne
    rcases get_one hm with hm | ⟨rfl, -⟩
    · exact ⟨r', hm, rfl⟩
    · exact absurd hr hne
  · intro m r hm
    rcases get_one hm with hm | ⟨rfl, rfl⟩
    · exact (h.re m r hm).le le (by intro l hl; rw [fr l hl]; simp)
    · exact fun _ => ⟨new, by simp⟩
  · intro p hp
    simp at hp
    exact le.fresh (by simp; omega) (h.fp p (by omega))
  · intro t ht; exact le.fresh (by simp) (h.ft t ht)
  · intro t ht; exact le.fresh (by simp) (h.fc t ht)
  · intro t ht
    simp at ht
    exact le.fresh (by simp; omega) (h.fr t (by omega))
  · intro e; exact le.excl (by simp) (h.mp e)
  · intro e; exact le.fresh (by simp) (h.mf e)
  · intro k t e
    obtain ⟨x, p₀, a, b, c, d⟩ := h.op k t e
    exact ⟨x, p₀, a, b, c, by rw [List.getElem?_append_left (List.getElem?_eq_some_iff.1 d).1]; exact d⟩
  · exact h.cu

theorem Link.unknown {s : State} {γ : Gh} {own : Nat → Nat} (h : Link s γ own) (hS : Sound γ s.trace) (p : Nat) (q : List Nat) (hq : s.queue = p :: q) :
    ∃ γ', Link { s with queue := q, resps := s.resps ++ [⟨.channel, []⟩],
                        trace := s.trace ++ [⟨.collector, .acquire (.queued p)⟩, ⟨.collector, .read (.parcel p)⟩, ⟨.collector, .write (.resp s.resps.length)⟩,
                            ⟨.collector, .release (.back s.resps.length)⟩] } γ' own ∧
      Sound γ' (s.trace ++ [⟨.collector, .acquire (.queued p)⟩, ⟨.collector, .read (.parcel p)⟩, ⟨.collector, .write (.resp s.resps.length)⟩,
                            ⟨.collector, .release (.back s.resps.length)⟩]) := by
  have hf := h.q p (by simp [hq])
  have hr := h.fr s.resps.length (Nat.le_refl _)
  have hn := h.qn
  rw [hq, List.nodup_cons] at hn
  have h1 := (hS.get .collector hf).owner (l := .parcel p) (g := .collector) (e := ⟨.collector, .read (.parcel p)⟩) (by simp [Ghost.set]) rfl (.inl rfl)
  have h2 := (h1.new (g := .collector) (l := .resp s.resps.length) (by simpa [Ghost.set, Ghost.learn] using hr)).give (g := .collector) (.back s.resps.length)
    (l := .resp s.resps.length) (by simp [Ghost.set])
  rw [snoc4]
  refine ⟨_, ?_, h2⟩
  generalize hγ : ((((γ.learn .collector (.queued p)).set (.parcel p) (.excl (.gor .collector))).set (.resp s.resps.length) (.excl (.gor .collector))).tell .collector (.back s.resps.length)).set
    (.resp s.resps.length) (.excl (.obj (.back s.resps.length))) = γ'
  have le : Le (fun l => l = .parcel p ∨ l = .resp s.resps.length) γ γ' := by
    subst hγ
    refine (((((Le.learn _ _).trans (Le.set _ _) (fun _ h => h.elim) (fun _ h => h)).trans (Le.set _ _) (fun _ h => .inl h) (fun _ h => .inr h)).trans (Le.tell _ _) (fun _ h => h) (fun _ h => h.elim)).trans (Le.set _ _) (fun _ h => h) (fun _ h => .inr h))
  have new : γ'.st (.resp s.resps.length) = .excl (.obj (.back s.resps.length)) := by subst hγ; simp [Ghost.set]
  clear hγ h2 h1
  constructor <;> dsimp only
  · intro p' hp
    exact le.excl (by simp; rintro rfl; exact hn.1 hp) (h.q p' (by simp [hq, hp]))
  · exact hn.2
  · refine fun t x ht => (h.ta t x ht).le le ?_ (fun _ _ => rfl) (by rintro l (rfl | rfl); rw [hf]; simp; rw [hr]; simp)
    intro m r' hm hne
    rcases get_one hm with hm | ⟨rfl, -⟩
    · exact ⟨r', hm, rfl⟩
    · exact absurd hr hne
  · intro m r hm
    rcases get_one hm with hm | ⟨rfl, rfl⟩
    · exact (h.re m r hm).le le (by rintro l (rfl | rfl); rw [hf]; simp; rw [hr]; simp)
    · exact fun _ => ⟨new, by simp⟩
  · intro p' hp
    have := h.fp p' hp
    exact le.fresh (by simp; rintro rfl; rw [hf] at this; cases this) this
  · intro t ht; exact le.fresh (by simp) (h.ft t ht)
  · intro t ht; exact le.fresh (by simp) (h.fc t ht)
  · intro t ht
    simp at ht
    exact le.fresh (by simp; omega) (h.fr t (by omega))
  · intro e; exact le.excl (by simp) (h.mp e)
  · intro e; exact le.fresh (by simp) (h.mf e)
  · exact h.op
  · exact h.cu

end Resmix.Rrpc.ServerRace
