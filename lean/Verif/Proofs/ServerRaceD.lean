import Verif.Proofs.ServerRaceC
set_option autoImplicit false
namespace Resmix.Rrpc.ServerRace
open Resmix.Race

/-- A step that changes one task, and the hands of locations, but neither the queue nor the collector's map: what is left to show. -/
theorem Link.task_step {s : State} {γ γ' : Gh} {own : Nat → Nat} {P : Loc → Prop} (h : Link s γ own) (le : Le P γ γ') (t : Nat) (x x' : Task) (ht : s.tasks[t]? = some x)
    (hx : x.phase ≠ .collecting) (resps' : List Resp) (trace' : List Entry)
    (hP : ∀ l, P l → γ.st l = .excl (.obj (.spawn t)) ∨ γ.st l = .excl (.gor (.runner t)) ∨ (γ.st l = .fresh ∧ (l = .common t ∨ ∃ m, l = .resp m ∧ m < resps'.length)))
    (hP' : ∀ t', P (.common t') → t' = t)
    (hn : Notes γ s.resps resps') (hlen : s.resps.length ≤ resps'.length) (hok : TaskOk resps' γ' own t x') (hre : ∀ (m : Nat) r, resps'[m]? = some r → RespOk γ' m r) :
    Link { s with tasks := s.tasks.set t x', resps := resps', trace := trace' } γ' own := by
  have nm : ¬ P .map := fun e => by
    have := h.mp (Link.tasks_ne ht)
    rcases hP _ e with e | e | ⟨e, -⟩ <;> rw [this] at e <;> cases e
  constructor <;> dsimp only
  · intro p hp
    have := h.q p hp
    exact le.excl (fun e => by rcases hP _ e with e | e | ⟨e, -⟩ <;> rw [this] at e <;> cases e) this
  · exact h.qn
  · intro t' y hy
    rcases get_set hy with ⟨rfl, rfl⟩ | ⟨hne, hy⟩
    · exact hok
    · refine (h.ta t' y hy).le le hn (fun _ _ => rfl) fun l hl => ?_
      have hcom : l ≠ .common t' := by
        rintro rfl
        exact hne (hP' _ hl).symm
      rcases hP l hl with e | e | ⟨e, -⟩ <;> rw [e] <;> simp [hne, hcom]
  · exact hre
  · intro p hp
    have := h.fp p hp
    exact le.fresh (fun e => by rcases hP _ e with e | e | ⟨_, e | ⟨m, e, _⟩⟩; (rw [this] at e; cases e); (rw [this] at e; cases e); cases e; cases e) this
  · intro t' ht'
    have := h.ft t' (by simpa using ht')
    exact le.fresh (fun e => by rcases hP _ e with e | e | ⟨_, e | ⟨m, e, _⟩⟩; (rw [this] at e; cases e); (rw [this] at e; cases e); cases e; cases e) this
  · intro t' ht'
    have hlt := (List.getElem?_eq_some_iff.1 ht).1
    exact le.fresh (fun e => by have := hP' t' e; subst this; simp at ht'; omega) (h.fc t' (by simpa using ht'))
  · intro m hm
    have := h.fr m (by omega)
    exact le.fresh (fun e => by rcases hP _ e with e | e | ⟨_, e | ⟨m, e, _⟩⟩; (rw [this] at e; cases e); (rw [this] at e; cases e); cases e; (cases e; omega)) this
  · intro _; exact le.excl nm (h.mp (Link.tasks_ne ht))
  · intro e; exact absurd (by simpa using e) (Link.tasks_ne ht)
  · intro k t' e
    obtain ⟨y, p₁, a, b, c', d'⟩ := h.op k t' e
    by_cases e' : t = t'
    · subst e'
      rw [ht] at a; cases a
      exact absurd b hx
    · exact ⟨y, p₁, by rw [List.getElem?_set_ne e']; exact a, b, c', d'⟩
  · intro t' e
    obtain ⟨y, a, b⟩ := h.cu t' e
    by_cases e' : t = t'
    · subst e'
      rw [ht] at a; cases a
      exact absurd b hx
    · exact ⟨y, by rw [List.getElem?_set_ne e']; exact a, b⟩

theorem Link.begin_ {s : State} {γ : Gh} {own : Nat → Nat} (h : Link s γ own) (hS : Sound γ s.trace) (t : Nat) (x : Task) (ht : s.tasks[t]? = some x) (hx : x.phase = .spawned) (tr : List Entry)
    (htr : tr = s.trace ++ ([⟨.runner t, .acquire (.spawn t)⟩, ⟨.runner t, .read (.task t)⟩] ++ x.parcels.map (fun p => ⟨.runner t, .read (.parcel p)⟩) ++ [⟨.runner t, .write (.task t)⟩])) :
    ∃ γ', Link { s with tasks := s.tasks.set t { x with phase := .running }, trace := tr } γ' own ∧ Sound γ' tr := by
  have hok := h.ta t x ht
  unfold TaskOk at hok
  rw [hx] at hok
  dsimp only at hok
  have hls : ∀ l ∈ Loc.task t :: x.parcels.map Loc.parcel, γ.st l = .excl (.obj (.spawn t)) := by
    intro l hl
    rcases List.mem_cons.1 hl with rfl | hl
    · exact hok.2.1
    · obtain ⟨p, hp, rfl⟩ := List.mem_map.1 hl
      exact hok.2.2 p hp
  have h1 := hS.getAll (.runner t) hls
  generalize hγ : (γ.learn (.runner t) (.spawn t)).setAll (Loc.task t :: x.parcels.map Loc.parcel) (.excl (.gor (.runner t))) = γ' at h1
  have le : Le (fun l => l ∈ Loc.task t :: x.parcels.map Loc.parcel) γ γ' := by
    subst hγ
    exact (Le.learn _ _).trans (Le.setAll _ _) (fun _ h => h.elim) (fun _ h => h)
  have new : ∀ l ∈ Loc.task t :: x.parcels.map Loc.parcel, γ'.st l = .excl (.gor (.runner t)) := by
    subst hγ; intro l hl; simp only [Ghost.setAll, if_pos hl]
  have h2 := h1.ownerAll (g := .runner t) ([⟨.runner t, .read (.task t)⟩] ++ x.parcels.map (fun p => ⟨.runner t, .read (.parcel p)⟩) ++ [⟨.runner t, .write (.task t)⟩]) (by
    intro e he
    simp only [List.mem_append, List.mem_singleton, List.mem_map] at he
    rcases he with (rfl | ⟨p, hp, rfl⟩) | rfl
    · exact ⟨rfl, _, new (.task t) (by simp), .inl rfl⟩
    · exact ⟨rfl, _, new (.parcel p) (by simp [hp]), .inl rfl⟩
    · exact ⟨rfl, _, new (.task t) (by simp), .inr rfl⟩)
  refine ⟨γ', ?_, by rw [htr]; simpa using h2⟩
  have := h.task_step le t x { x with phase := .running } ht (by rw [hx]; simp) s.resps tr (fun l hl => .inl (hls l hl)) (by simp) (Notes.refl _ _) (Nat.le_refl _)
    (by unfold TaskOk; exact ⟨le.fresh (by simp) hok.1, fun p hp => new _ (by simp [hp])⟩)
    (fun m r hr => (h.re m r hr).le le fun l hl => by rw [hls l hl]; simp)
  exact this

theorem ids_mem {s : State} {n m : Nat} : m ∈ ids s n ↔ s.resps.length ≤ m ∧ m < s.resps.length + n := by
  unfold ids
  simp only [List.mem_map, List.mem_range]
  constructor
  · rintro ⟨a, h, rfl⟩; omega
  · rintro ⟨h1, h2⟩; exact ⟨m - s.resps.length, by omega, by omega⟩

theorem ids_nodup (s : State) (n : Nat) : (ids s n).Nodup := by
  unfold ids
  refine List.Nodup.map ?_ List.nodup_range
  intro a b h; dsimp only at h; omega

theorem get_new {s : State} {n m : Nat} {r₀ r : Resp} (h : (s.resps ++ List.replicate n r₀)[m]? = some r) : s.resps[m]? = some r ∨ (s.resps.length ≤ m ∧ r = r₀) := by
  by_cases e : m < s.resps.length
  · rw [List.getElem?_append_left e] at h; exact .inl h
  · rw [List.getElem?_append_right (by omega), List.getElem?_replicate] at h
    split at h
    · cases h; exact .inr ⟨by omega, rfl⟩
    · cases h

theorem Link.notes_new {s : State} {γ : Gh} {own : Nat → Nat} (h : Link s γ own) (n : Nat) (r₀ : Resp) : Notes γ s.resps (s.resps ++ List.replicate n r₀) := by
  intro m r' hr hne
  rcases get_new hr with hr | ⟨hm, -⟩
  · exact ⟨r', hr, rfl⟩
  · exact absurd (h.fr m hm) hne

theorem TaskOk.run {resps : List Resp} {γ : Gh} {own : Nat → Nat} {t : Nat} {x : Task} (h : TaskOk resps γ own t x) (hx : x.phase = .running) :
    ∀ p ∈ x.parcels, γ.st (.parcel p) = .excl (.gor (.runner t)) := by
  unfold TaskOk at h; rw [hx] at h; exact h.2

/-- The responses are made, with what they share. -/
theorem Link.respond {s : State} {γ γ' : Gh} {own : Nat → Nat} (h : Link s γ own) (n t : Nat) (x : Task) (p₀ : Nat) (ht : s.tasks[t]? = some x) (hx : x.phase = .running)
    (hp : x.parcels.head? = some p₀) (le : Le (fun l => l = .common t ∨ l ∈ (ids s n).map Loc.resp ∨ l = .parcel p₀) γ γ')
    (newr : ∀ m ∈ ids s n, γ'.st (.resp m) = .excl (.gor (.runner t))) (newp : Kn γ' (.gor (.runner t)) (.parcel p₀)) (newc : Kn γ' (.gor (.runner t)) (.common t)) (tr : List Entry) :
    Link { s with tasks := s.tasks.set t { x with phase := .sending (ids s n) }, resps := s.resps ++ List.replicate n ⟨.made, [.parcel p₀, .common t]⟩, trace := tr } γ' own := by
  have hrun := (h.ta t x ht).run hx p₀ (List.mem_of_head? hp)
  have hcom := (h.ta t x ht).com (.inr (.inr hx))
  have hfr : ∀ l ∈ (ids s n).map Loc.resp, γ.st l = .fresh := by
    intro l hl
    obtain ⟨m, hm, rfl⟩ := List.mem_map.1 hl
    exact h.fr m (ids_mem.1 hm).1
  refine h.task_step le t x { x with phase := .sending (ids s n) } ht (by rw [hx]; simp) (s.resps ++ List.replicate n ⟨.made, [.parcel p₀, .common t]⟩) tr ?_ (by simp) (h.notes_new _ _) (by simp) ?_ ?_
  · rintro l (rfl | hl | rfl)
    · exact .inr (.inr ⟨hcom, .inl rfl⟩)
    · obtain ⟨m, hm, rfl⟩ := List.mem_map.1 hl
      exact .inr (.inr ⟨hfr _ hl, .inr ⟨m, rfl, by have := ids_mem.1 hm; simp; omega⟩⟩)
    · exact .inr (.inl hrun)
  · unfold TaskOk
    refine ⟨ids_nodup s n, fun m hm => ⟨newr m hm, fun r hr l hl => ?_⟩⟩
    rcases get_new hr with hr | ⟨-, rfl⟩
    · have := (ids_mem.1 hm).1
      have := (List.getElem?_eq_some_iff.1 hr).1
      omega
    · simp at hl
      rcases hl with rfl | rfl
      · exact newp
      · exact newc
  · intro m r hr
    rcases get_new hr with hr | ⟨-, rfl⟩
    · refine (h.re m r hr).le le ?_
      rintro l (rfl | hl | rfl)
      · rw [hcom]; simp
      · rw [hfr l hl]; simp
      · rw [hrun]; simp
    · intro e; cases e

/-- The accesses of a goroutine that makes its responses and then freezes what they share. -/
theorem Link.respond_sound {s : State} {γ : Gh} {own : Nat → Nat} (h : Link s γ own) (hS : Sound γ s.trace) (n t : Nat) (x : Task) (p₀ : Nat) (ht : s.tasks[t]? = some x) (hx : x.phase = .running)
    (hp : x.parcels.head? = some p₀) (es₁ es₂ : List Entry) (h₁ : ∀ e ∈ es₁, e.g = .runner t ∧ (e.op = .read (.parcel p₀) ∨ e.op = .write (.parcel p₀)))
    (h₂ : ∀ e ∈ es₂, e.g = .runner t ∧ (e.op = .read (.parcel p₀) ∨ e.op = .write (.parcel p₀))) (tr : List Entry)
    (htr : tr = s.trace ++ ([⟨.runner t, .write (.common t)⟩] ++ es₁ ++ (ids s n).map (fun m => ⟨.runner t, .write (.resp m)⟩) ++ es₂)) :
    ∃ γ', Link { s with tasks := s.tasks.set t { x with phase := .sending (ids s n) }, resps := s.resps ++ List.replicate n ⟨.made, [.parcel p₀, .common t]⟩, trace := tr } γ' own ∧ Sound γ' tr := by
  have hrun := (h.ta t x ht).run hx p₀ (List.mem_of_head? hp)
  have hcom := (h.ta t x ht).com (.inr (.inr hx))
  have hfr : ∀ l ∈ (ids s n).map Loc.resp, γ.st l = .fresh := by
    intro l hl
    obtain ⟨m, hm, rfl⟩ := List.mem_map.1 hl
    exact h.fr m (ids_mem.1 hm).1
  have h0 := hS.new (g := .runner t) hcom
  have h1 := h0.ownerAll (g := .runner t) es₁ (fun e he => ⟨(h₁ e he).1, .parcel p₀, by simpa [Ghost.set] using hrun, (h₁ e he).2⟩)
  have h2 := h1.newAll (g := .runner t) ((ids s n).map Loc.resp) ((ids_nodup s n).map (by intro a b e; cases e; rfl)) (fun l hl => by
    have := hfr l hl
    obtain ⟨m, hm, rfl⟩ := List.mem_map.1 hl
    simpa [Ghost.set] using this)
  have h3 := h2.ownerAll (g := .runner t) es₂ (fun e he => ⟨(h₂ e he).1, .parcel p₀, by simpa [Ghost.setAll, Ghost.set] using hrun, (h₂ e he).2⟩)
  have h4 := (h3.freeze (o := .gor (.runner t)) (l := .parcel p₀) (by simpa [Ghost.setAll, Ghost.set] using hrun)).freeze (o := .gor (.runner t)) (l := .common t)
    (by simp [Ghost.freeze, Ghost.setAll, Ghost.set])
  refine ⟨_, ?_, by rw [htr]; simpa [List.map_map, Function.comp_def] using h4⟩
  refine h.respond n t x p₀ ht hx hp ?_ ?_ ?_ ?_ tr
  · refine ((((Le.set _ _).trans (Le.setAll _ _) (R := fun l => l = .common t ∨ l ∈ (ids s n).map Loc.resp) (fun _ h => .inl h) (fun _ h => .inr h)).trans (Le.freeze _ _ _)
      (R := fun l => l = .common t ∨ l ∈ (ids s n).map Loc.resp ∨ l = .parcel p₀) (fun _ h => h.elim .inl (fun h => .inr (.inl h))) (fun _ h => .inr (.inr h))).trans (Le.freeze _ _ _) (fun _ h => h) (fun _ h => .inl h))
  · intro m hm; simp [Ghost.freeze, Ghost.setAll, hm]
  · exact ⟨⟨false, by simp [Ghost.freeze]⟩, by simp [Ghost.freeze]⟩
  · exact ⟨⟨false, by simp [Ghost.freeze]⟩, by simp [Ghost.freeze]⟩

theorem Link.send {s : State} {γ : Gh} {own : Nat → Nat} (h : Link s γ own) (hS : Sound γ s.trace) (t m : Nat) (todo : List Nat) (x : Task) (r : Resp) (ht : s.tasks[t]? = some x)
    (hx : x.phase = .sending (m :: todo)) (hr : s.resps[m]? = some r) :
    ∃ γ', Link { s with tasks := s.tasks.set t { x with phase := .sending todo }, resps := s.resps.set m { r with place := .channel },
                        trace := s.trace ++ [⟨.runner t, .release (.back m)⟩] } γ' own ∧ Sound γ' (s.trace ++ [⟨.runner t, .release (.back m)⟩]) := by
  have hok := h.ta t x ht
  have hok' := hok
  unfold TaskOk at hok
  rw [hx] at hok
  dsimp only at hok
  obtain ⟨hnd, hok⟩ := hok
  obtain ⟨hmn, hnd⟩ := List.nodup_cons.1 hnd
  obtain ⟨hm1, hm2⟩ := hok m (by simp)
  have h1 := hS.give (.back m) hm1
  refine ⟨_, ?_, h1⟩
  generalize hγ : (γ.tell (.runner t) (.back m)).set (.resp m) (.excl (.obj (.back m))) = γ'
  have le : Le (fun l => l = .resp m) γ γ' := by
    subst hγ; exact (Le.tell _ _).trans (Le.set _ _) (fun _ h => h.elim) (fun _ h => h)
  have new : γ'.st (.resp m) = .excl (.obj (.back m)) := by subst hγ; simp [Ghost.set]
  have newK : ∀ l, Kn γ (.gor (.runner t)) l → Kn γ' (.obj (.back m)) l := by
    intro l hp
    refine ⟨(le.kn (by rintro rfl; obtain ⟨b, hb⟩ := hp.1; rw [hm1] at hb; cases hb) hp).1, ?_⟩
    subst hγ
    exact .inr ⟨rfl, hp.2⟩
  refine h.task_step le t x { x with phase := .sending todo } ht (by rw [hx]; simp) (s.resps.set m { r with place := .channel }) _ (by rintro l rfl; exact .inr (.inl hm1)) (by simp) ?_ (by simp) ?_ ?_
  · intro m' r' hr' _
    rcases get_set hr' with ⟨rfl, rfl⟩ | ⟨-, hr'⟩
    · exact ⟨r, hr, rfl⟩
    · exact ⟨r', hr', rfl⟩
  · unfold TaskOk
    refine ⟨hnd, fun m' hm' => ?_⟩
    have hne : m ≠ m' := by rintro rfl; exact hmn hm'
    obtain ⟨a, b⟩ := hok m' (by simp [hm'])
    refine ⟨le.excl (by simp; exact fun e => hne e.symm) a, fun r' hr' l hl => ?_⟩
    rcases get_set hr' with ⟨e, -⟩ | ⟨-, hr'⟩
    · exact absurd e hne
    · have hk := b r' hr' l hl
      exact le.kn (by rintro rfl; obtain ⟨b, hb⟩ := hk.1; rw [hm1] at hb; cases hb) hk
  · intro m' r' hr'
    rcases get_set hr' with ⟨rfl, rfl⟩ | ⟨-, hr'⟩
    · exact fun _ => ⟨new, fun l hl => newK l (hm2 r hr l hl)⟩
    · exact (h.re m' r' hr').le le (by rintro l rfl; rw [hm1]; simp)

/-- A goroutine reads frozen locations it knows of. -/
theorem reads_sound {γ : Gh} {tr : List Entry} (h : Sound γ tr) {g : Gor} : ∀ (ls : List Loc), (∀ l ∈ ls, Kn γ (.gor g) l) →
    ∃ γ', Le (fun _ => False) γ γ' ∧ Sound γ' (tr ++ ls.map (fun l => ⟨g, .read l⟩)) := by
  intro ls
  induction ls generalizing γ tr with
  | nil => exact fun _ => ⟨γ, fun _ _ => ⟨.inl rfl, fun _ h => h⟩, by simpa using h⟩
  | cons l ls ih =>
    intro hk
    obtain ⟨⟨b, hb⟩, hK⟩ := hk l (by simp)
    have le : Le (fun _ => False) γ (γ.set l (.froz false)) := by
      intro m _
      refine ⟨?_, fun _ h => h⟩
      by_cases e : m = l
      · subst e; exact .inr ⟨b, false, hb, by simp [Ghost.set]⟩
      · exact .inl (by simp [Ghost.set, e])
    obtain ⟨γ', a, c⟩ := ih (h.read hb hK) (fun m hm => le.kn (fun h => h) (hk m (by simp [hm])))
    exact ⟨γ', le.trans a (fun _ h => h) (fun _ h => h), by simpa using c⟩

theorem Link.deliver {s : State} {γ : Gh} {own : Nat → Nat} (h : Link s γ own) (hS : Sound γ s.trace) (j m : Nat) (r : Resp) (hr : s.resps[m]? = some r) (hpl : r.place = .channel) (tr : List Entry)
    (htr : tr = s.trace ++ ([⟨.sender j, .acquire (.back m)⟩, ⟨.sender j, .read (.resp m)⟩] ++ (r.refs.map fun l => ⟨.sender j, .read l⟩))) :
    ∃ γ', Link { s with resps := s.resps.set m { r with place := .taken }, trace := tr } γ' own ∧ Sound γ' tr := by
  obtain ⟨hm1, hm2⟩ := h.re m r hr hpl
  have h1 := (hS.get (.sender j) hm1).owner (l := .resp m) (g := .sender j) (e := ⟨.sender j, .read (.resp m)⟩) (by simp [Ghost.set]) rfl (.inl rfl)
  have le0 : Le (fun l => l = .resp m) γ ((γ.learn (.sender j) (.back m)).set (.resp m) (.excl (.gor (.sender j)))) :=
    (Le.learn _ _).trans (Le.set _ _) (fun _ h => h.elim) (fun _ h => h)
  have hkn : ∀ l ∈ r.refs, Kn ((γ.learn (.sender j) (.back m)).set (.resp m) (.excl (.gor (.sender j)))) (.gor (.sender j)) l := by
    intro l hl
    have hk := hm2 l hl
    exact ⟨(le0.kn (by rintro rfl; obtain ⟨b, hb⟩ := hk.1; rw [hm1] at hb; cases hb) hk).1, .inr ⟨rfl, hk.2⟩⟩
  obtain ⟨γ', le1, hS'⟩ := reads_sound h1 r.refs hkn
  have le : Le (fun l => l = .resp m) γ γ' := le0.trans le1 (fun _ h => h) (fun _ h => h.elim)
  replace hS' : Sound γ' tr := by rw [htr]; simpa using hS'
  refine ⟨γ', ?_, hS'⟩
  constructor <;> dsimp only
  · intro p hp; exact le.excl (by simp) (h.q p hp)
  · exact h.qn
  · refine fun t x ht => (h.ta t x ht).le le ?_ (fun _ _ => rfl) (by rintro l rfl; rw [hm1]; simp)
    intro m' r' hr' _
    rcases get_set hr' with ⟨rfl, rfl⟩ | ⟨-, hr'⟩
    · exact ⟨r, hr, rfl⟩
    · exact ⟨r', hr', rfl⟩
  · intro m' r' hr'
    rcases get_set hr' with ⟨rfl, rfl⟩ | ⟨hne, hr'⟩
    · intro e; cases e
    · exact (h.re m' r' hr').le le (by rintro l rfl; rw [hm1]; simp [hne])
  · intro p hp; exact le.fresh (by simp) (h.fp p hp)
  · intro t ht; exact le.fresh (by simp) (h.ft t ht)
  · intro t ht; exact le.fresh (by simp) (h.fc t ht)
  · intro m' hm'
    have := h.fr m' (by simpa using hm')
    exact le.fresh (by rintro e; rw [e, hm1] at this; cases this) this
  · intro e; exact le.excl (by simp) (h.mp e)
  · intro e; exact le.fresh (by simp) (h.mf e)
  · exact h.op
  · exact h.cu

theorem own_step {n k : Nat} {s s' : State} {γ : Gh} {own : Nat → Nat} (hs : Step n k s s') (h : Link s γ own) (hS : Sound γ s.trace) : ∃ γ' own', Link s' γ' own' ∧ Sound γ' s'.trace := by
  cases hs with
  | recv g key => obtain ⟨γ', a, b⟩ := h.recv hS g key; exact ⟨γ', own, a, b⟩
  | refuse g key => obtain ⟨γ', a, b⟩ := h.refuse hS g key; exact ⟨γ', own, a, b⟩
  | unknown p q _ hq => obtain ⟨γ', a, b⟩ := h.unknown hS p q hq; exact ⟨γ', own, a, b⟩
  | create p key q _ hq hk _ => exact h.create hS p key q hq hk
  | add p key t x q _ hq _ hl ht => exact h.add hS p key t x q hq hl ht
  | more t x hc _ _ => exact ⟨γ, own, h.more hS t hc⟩
  | spawn t key x p₀ hc ht _ hp hk => obtain ⟨γ', a, b⟩ := h.spawn hS t key x p₀ hc ht hp hk; exact ⟨γ', own, a, b⟩
  | tick t key x hc hk ht => exact ⟨γ, own, h.tick hS t key x hc hk ht⟩
  | begin_ t x ht hx => obtain ⟨γ', a, b⟩ := h.begin_ hS t x ht hx _ rfl; exact ⟨γ', own, a, b⟩
  | reply t x p₀ ht hx hp => 
    obtain ⟨γ', a, b⟩ := h.respond_sound hS n t x p₀ ht hx hp [] [⟨.runner t, .write (.parcel p₀)⟩] (by simp) (by intro e he; rw [List.mem_singleton.1 he]; exact ⟨rfl, .inr rfl⟩) _ rfl
    exact ⟨γ', own, by simpa using a, by simpa using b⟩
  | fail t x p₀ ht hx hp => 
    obtain ⟨γ', a, b⟩ := h.respond_sound hS n t x p₀ ht hx hp [⟨.runner t, .read (.parcel p₀)⟩] [] (by intro e he; rw [List.mem_singleton.1 he]; exact ⟨rfl, .inl rfl⟩) (by simp) _ rfl
    exact ⟨γ', own, by simpa using a, by simpa using b⟩
  | send t m todo x r ht hx hr => obtain ⟨γ', a, b⟩ := h.send hS t m todo x r ht hx hr; exact ⟨γ', own, a, b⟩
  | deliver j m r hr hp => obtain ⟨γ', a, b⟩ := h.deliver hS j m r hr hp _ rfl; exact ⟨γ', own, a, b⟩

theorem Link.init : Link .init Ghost.init (fun _ => 0) := by
  constructor <;> simp [State.init, Ghost.init, GoMap.lookup]

theorem Reach.own {n k : Nat} {s : State} (h : Reach n k s) : ∃ γ own, Link s γ own ∧ Sound γ s.trace := by
  induction h with
  | init => exact ⟨_, _, Link.init, Sound.init⟩
  | step s s' _ hs ih =>
    obtain ⟨γ, own, a, b⟩ := ih
    exact own_step hs a b

end Resmix.Rrpc.ServerRace
