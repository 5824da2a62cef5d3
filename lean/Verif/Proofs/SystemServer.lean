import Verif.Model.System
import Verif.Proofs.SystemMixer
import Verif.Proofs.ServerB
set_option autoImplicit false
/-
What one server step does to the parts of a server that belong to one round `r` (for C64).
-/
namespace Resmix.System
open Resmix.Mixer (Messages MixOutput callOf)

/-- The round object of round `r`. -/
def mixerOf (r : Nat) (srv : Server.State) : Option Mixer.State := (srv.objs.find? fun p => p.1 = r).map (·.2)

/-- The batches of round `r` waiting to enter the round object. -/
def waitB (r : Nat) (srv : Server.State) : List Messages :=
  srv.waiting.flatMap fun e => if (srv.objs[e.1]?).map (·.1) = some r then e.2 else []

structure SI (r : Nat) (srv : Server.State) : Prop where
  uniq : ∀ (i j : Nat) (m m' : Mixer.State), srv.objs[i]? = some (r, m) → srv.objs[j]? = some (r, m') → i = j
  bound : ∀ r' i, srv.rounds.lookup r' = some i → ∃ m, srv.objs[i]? = some (r', m)
  wait : ∀ e ∈ srv.waiting, e.1 < srv.objs.length
  small : ∀ e ∈ srv.objs, e.1 < 2 ^ 32
  live : srv.crashed = false → ∀ e ∈ srv.objs, e.2.crashed = false

theorem mixerOf_eq {r : Nat} {srv : Server.State} (h : SI r srv) {i : Nat} {m : Mixer.State} (hi : srv.objs[i]? = some (r, m)) :
    mixerOf r srv = some m := by
  unfold mixerOf
  cases hf : srv.objs.find? fun p => p.1 = r with
  | none =>
    rw [List.find?_eq_none] at hf
    have := hf _ (List.mem_of_getElem? hi)
    simp at this
  | some p =>
    obtain ⟨r', m'⟩ := p
    have h1 := List.find?_some hf
    have h2 := List.mem_of_find?_eq_some hf
    obtain ⟨j, hj⟩ := List.getElem?_of_mem h2
    simp only [decide_eq_true_eq] at h1
    subst h1
    obtain rfl := h.uniq _ _ _ _ hi hj
    rw [hi] at hj
    cases hj; rfl

theorem mixerOf_none {r : Nat} {srv : Server.State} : mixerOf r srv = none ↔ ∀ e ∈ srv.objs, e.1 ≠ r := by
  unfold mixerOf
  rw [Option.map_eq_none_iff, List.find?_eq_none]
  simp

theorem mixerOf_some {r : Nat} {srv : Server.State} {m : Mixer.State} (h : mixerOf r srv = some m) : ∃ i : Nat, srv.objs[i]? = some (r, m) := by
  unfold mixerOf at h
  rw [Option.map_eq_some_iff] at h
  obtain ⟨⟨r', m'⟩, hf, rfl⟩ := h
  have h1 := List.find?_some hf
  simp only [decide_eq_true_eq] at h1
  subst h1
  exact List.getElem?_of_mem (List.mem_of_find?_eq_some hf)

/-- The effect of a server step on round `r`. -/
inductive Effect (cfg : Server.Config) (r : Nat) (srv : Server.State) : Server.Action → Server.State → Prop
  | quiet {a srv'} : mixerOf r srv' = mixerOf r srv → waitB r srv' = waitB r srv → (∀ i m b, a = .work i b → srv.objs[i]? ≠ some (r, m)) →
      Effect cfg r srv a srv'
  | opened {srv' ls order w m} : srv.connections = true → mixerOf r srv' = some m →
      (∃ first rest, cfg.topo.layers = first :: rest ∧ Server.propagate cfg.topo first (Server.convertLoads ls) = .ok w) →
      Mixer.newMixers cfg.topo (Server.ownMixes cfg.topo cfg.host order) w = .ok m → waitB r srv' = waitB r srv →
      Effect cfg r srv (.newRound r ls order) srv'
  | queued {srv' ms} : mixerOf r srv' = mixerOf r srv → waitB r srv' = waitB r srv ++ ms → Effect cfg r srv (.addMessages r ms) srv'
  | mixed {a srv' m m' b} : mixerOf r srv = some m → Mixer.step (cfg.env r) m b = some m' → mixerOf r srv' = some m' →
      (waitB r srv).Perm (callOf b ++ waitB r srv') → (∀ i b', a = .work i b' → b = b') → (b = .recv → ∃ i, a = .work i .recv) →
      (∀ r' ms, a ≠ .addMessages r' ms) → (b = .close → a = .endRound r) → Effect cfg r srv a srv'

theorem setObj_mixerOf {r : Nat} {srv srv' : Server.State} {i r' : Nat} {m m' : Mixer.State} (h : SI r srv) (h' : SI r srv')
    (hi : srv.objs[i]? = some (r', m)) (ho : srv'.objs = srv.objs.set i (r', m')) :
    (r' = r → mixerOf r srv' = some m') ∧ (r' ≠ r → mixerOf r srv' = mixerOf r srv) := by
  have hlt : i < srv.objs.length := (List.getElem?_eq_some_iff.1 hi).1
  constructor
  · rintro rfl
    refine mixerOf_eq h' (i := i) ?_
    rw [ho]; simp [hlt]
  · intro hne
    cases hm : mixerOf r srv with
    | none =>
      rw [mixerOf_none] at hm ⊢
      intro e he
      rw [ho] at he
      rcases Mixer.mem_of_mem_set he with he | rfl
      · exact hm e he
      · exact hne
    | some m0 =>
      obtain ⟨j, hj⟩ := mixerOf_some hm
      refine mixerOf_eq h' (i := j) ?_
      have : i ≠ j := by rintro rfl; rw [hi] at hj; cases hj; exact hne rfl
      rw [ho, List.getElem?_set_ne this, hj]

theorem setObj_fst {srv : Server.State} {i r' : Nat} {m m' : Mixer.State} (hi : srv.objs[i]? = some (r', m)) (j : Nat) :
    ((srv.objs.set i (r', m'))[j]?).map (·.1) = (srv.objs[j]?).map (·.1) := by
  have hlt : i < srv.objs.length := (List.getElem?_eq_some_iff.1 hi).1
  by_cases h : i = j
  · subst h; rw [hi]; simp [hlt]
  · rw [List.getElem?_set_ne h]

theorem SI.setObj {r : Nat} {srv srv' : Server.State} {i r' : Nat} {m m' : Mixer.State} (h : SI r srv)
    (hi : srv.objs[i]? = some (r', m)) (ho : srv'.objs = srv.objs.set i (r', m'))
    (hr : ∀ r'' j, srv'.rounds.lookup r'' = some j → srv.rounds.lookup r'' = some j)
    (hw : ∀ e ∈ srv'.waiting, e ∈ srv.waiting) (hc : srv'.crashed = (srv.crashed || m'.crashed)) : SI r srv' where
  uniq := by
    intro a b ma mb h1 h2
    have e1 := setObj_fst (m' := m') hi a
    have e2 := setObj_fst (m' := m') hi b
    rw [← ho, h1] at e1
    rw [← ho, h2] at e2
    cases hA : srv.objs[a]? with
    | none => rw [hA] at e1; simp at e1
    | some x =>
      cases hB : srv.objs[b]? with
      | none => rw [hB] at e2; simp at e2
      | some y =>
        obtain ⟨x1, x2⟩ := x
        obtain ⟨y1, y2⟩ := y
        rw [hA] at e1; rw [hB] at e2
        simp at e1 e2
        subst e1; subst e2
        exact h.uniq a b _ _ hA hB
  bound := by
    intro r'' j hj
    obtain ⟨mj, hmj⟩ := h.bound r'' j (hr _ _ hj)
    have e1 := setObj_fst (m' := m') hi j
    rw [← ho, hmj] at e1
    cases hA : srv'.objs[j]? with
    | none => rw [hA] at e1; simp at e1
    | some x => obtain ⟨x1, x2⟩ := x; rw [hA] at e1; simp at e1; subst e1; exact ⟨x2, rfl⟩
  wait := by intro e he; rw [ho]; simpa using h.wait e (hw e he)
  small := by
    intro e he
    rw [ho] at he
    rcases Mixer.mem_of_mem_set he with he | rfl
    · exact h.small e he
    · exact h.small (r', m) (List.mem_of_getElem? hi)
  live := by
    intro hcr e he
    rw [hc] at hcr
    simp only [Bool.or_eq_false_iff] at hcr
    rw [ho] at he
    rcases Mixer.mem_of_mem_set he with he | rfl
    · exact h.live hcr.1 e he
    · exact hcr.2

theorem waitB_congr {r : Nat} {srv srv' : Server.State} (hw : srv'.waiting = srv.waiting)
    (ho : ∀ e ∈ srv.waiting, (srv'.objs[e.1]?).map (·.1) = (srv.objs[e.1]?).map (·.1)) : waitB r srv' = waitB r srv := by
  unfold waitB
  rw [hw]
  exact List.flatMap_congr fun e he => by rw [ho e he]

theorem effect_of_mix {cfg : Server.Config} {r : Nat} {srv srv' : Server.State} {a : Server.Action} {i r' : Nat} {m m' : Mixer.State}
    {b : Mixer.Action} (h : SI r srv) (h' : SI r srv') (hi : srv.objs[i]? = some (r', m)) (hst : Mixer.step (cfg.env r') m b = some m')
    (ho : srv'.objs = srv.objs.set i (r', m')) (hw : srv'.waiting = srv.waiting) (hcall : callOf b = [])
    (hab : ∀ j b', a = .work j b' → j = i ∧ b = b') (hr : b = .recv → ∃ i, a = .work i .recv) (hna : ∀ r' ms, a ≠ .addMessages r' ms)
    (hcl : b = .close → r' = r → a = .endRound r) : Effect cfg r srv a srv' := by
  have hwb : waitB r srv' = waitB r srv := waitB_congr hw fun e _ => by rw [ho]; exact setObj_fst hi _
  by_cases hrr : r' = r
  · subst hrr
    refine .mixed (b := b) (mixerOf_eq h hi) hst ((setObj_mixerOf h h' hi ho).1 rfl) ?_ (fun j b' hb => (hab j b' hb).2) hr hna (fun hb => hcl hb rfl)
    rw [hcall, hwb]; exact .refl _
  · refine .quiet ((setObj_mixerOf h h' hi ho).2 hrr) hwb ?_
    intro j mj b' hb hj
    obtain ⟨rfl, _⟩ := hab j b' hb
    rw [hi] at hj; cases hj; exact hrr rfl

/-- A server step: the invariant is kept, and one of the effects occurs (or the server is found crashed and nothing else changed). -/
theorem server_effect {cfg : Server.Config} {r : Nat} {srv srv' : Server.State} {a : Server.Action} {resp : Server.Resp} (h : SI r srv)
    (hs : Server.step cfg srv a = some (srv', resp)) (hsmall : ∀ r' ls order, a = .newRound r' ls order → r' < 2 ^ 32)
    (honce : ∀ ls order, a = .newRound r ls order → mixerOf r srv = none) : SI r srv' ∧ Effect cfg r srv a srv' := by
  unfold Server.step at hs
  split at hs
  · cases hs
  next hcr =>
  have hcr : srv.crashed = false := by simpa using hcr
  cases a with
  | newRound r' ls order =>
    simp only at hs
    split at hs
    · next srv1 hn =>
      cases hs
      obtain ⟨first, rest, w, m, hconn, hlay, hprop, hm, rfl⟩ := Server.newRound_eq hn
      have hnew : r' = r → ∀ e ∈ srv.objs, e.1 ≠ r := by
        rintro rfl; exact mixerOf_none.1 (honce _ _ rfl)
      have hget : ∀ (i : Nat) (x : Nat × Mixer.State), (srv.objs ++ [(r', m)])[i]? = some x → srv.objs[i]? = some x ∨ (i = srv.objs.length ∧ x = (r', m)) := by
        intro i x hx
        by_cases hlt : i < srv.objs.length
        · rw [List.getElem?_append_left hlt] at hx; exact .inl hx
        · rw [List.getElem?_append_right (by omega)] at hx
          have := List.mem_of_getElem? hx
          have h0 := (List.getElem?_eq_some_iff.1 hx).1
          simp only [List.length_singleton] at h0
          exact .inr ⟨by omega, by simpa using this⟩
      have hsi : SI r { srv with objs := srv.objs ++ [(r', m)], rounds := srv.rounds.insert r' srv.objs.length } := by
        refine ⟨?_, ?_, ?_, ?_, ?_⟩
        · intro i j mi mj hi hj
          rcases hget _ _ hi with h1 | ⟨h1, h1'⟩ <;> rcases hget _ _ hj with h2 | ⟨h2, h2'⟩
          · exact h.uniq _ _ _ _ h1 h2
          · cases h2'; exact absurd rfl (hnew rfl _ (List.mem_of_getElem? h1))
          · cases h1'; exact absurd rfl (hnew rfl _ (List.mem_of_getElem? h2))
          · omega
        · intro r'' i hi
          simp only at hi
          rw [GoMap.lookup_insert] at hi
          split at hi
          · next he => subst he; cases hi; exact ⟨m, by simp⟩
          · obtain ⟨m', hm'⟩ := h.bound _ _ hi
            exact ⟨m', by simp only; rw [List.getElem?_append_left (List.getElem?_eq_some_iff.1 hm').1]; exact hm'⟩
        · intro e he
          have := h.wait e he
          simp; omega
        · intro e he
          simp only [List.mem_append, List.mem_singleton] at he
          rcases he with he | rfl
          · exact h.small e he
          · exact hsmall _ _ _ rfl
        · intro hc e he
          simp only [List.mem_append, List.mem_singleton] at he
          rcases he with he | rfl
          · exact h.live hc e he
          · exact (Mixer.newMixers_spec hm).2.2.2.2.2.2.2.2.1
      refine ⟨hsi, ?_⟩
      have hwb : waitB r { srv with objs := srv.objs ++ [(r', m)], rounds := srv.rounds.insert r' srv.objs.length } = waitB r srv :=
        waitB_congr rfl fun e he => by simp only; rw [List.getElem?_append_left (h.wait e he)]
      by_cases hrr : r' = r
      · subst hrr
        exact .opened hconn (mixerOf_eq hsi (i := srv.objs.length) (by simp)) ⟨first, rest, hlay, hprop⟩ hm hwb
      · refine .quiet ?_ hwb (by intro i m b hb; cases hb)
        cases hm0 : mixerOf r srv with
        | none =>
          rw [mixerOf_none] at hm0 ⊢
          intro e he
          simp only [List.mem_append, List.mem_singleton] at he
          rcases he with he | rfl
          · exact hm0 e he
          · exact hrr
        | some m0 =>
          obtain ⟨j, hj⟩ := mixerOf_some hm0
          exact mixerOf_eq hsi (i := j) (by simp only; rw [List.getElem?_append_left (List.getElem?_eq_some_iff.1 hj).1]; exact hj)
    · cases hs
      refine ⟨⟨h.uniq, h.bound, h.wait, h.small, fun hc => absurd hc (by simp)⟩, .quiet rfl rfl (by intro i m b hb; cases hb)⟩
    · cases hs
      exact ⟨h, .quiet rfl rfl (by intro i m b hb; cases hb)⟩
  | endRound r' =>
    simp only at hs
    split at hs
    · cases hs; exact ⟨h, .quiet rfl rfl (by intro i m b hb; cases hb)⟩
    · next i hi =>
      split at hs
      · cases hs
      · next rr m hm =>
        split at hs
        · cases hs
        · next m' hst =>
          cases hs
          have hsi : SI r { srv.setObj i rr m' with rounds := srv.rounds.erase r' } :=
            h.setObj hm rfl (fun r'' j hj => by
              simp only at hj
              rw [GoMap.lookup_erase] at hj
              split at hj
              · cases hj
              · exact hj) (fun e he => he) rfl
          obtain ⟨m1, hm1⟩ := h.bound _ _ hi
          rw [hm] at hm1; cases hm1
          exact ⟨hsi, effect_of_mix (b := .close) h hsi hm hst rfl rfl rfl (by intro j b' hb; cases hb) nofun nofun
            (by rintro _ rfl; rfl)⟩
  | addMessages r' ms =>
    simp only at hs
    split at hs
    · cases hs; exact ⟨h, .quiet rfl rfl (by intro i m b hb; cases hb)⟩
    · next i hi =>
      cases hs
      obtain ⟨m, hm⟩ := h.bound _ _ hi
      refine ⟨⟨h.uniq, h.bound, ?_, h.small, h.live⟩, ?_⟩
      · intro e he
        simp only [List.mem_append, List.mem_singleton] at he
        rcases he with he | rfl
        · exact h.wait e he
        · exact (List.getElem?_eq_some_iff.1 hm).1
      · by_cases hrr : r' = r
        · subst hrr
          refine .queued rfl ?_
          simp [waitB, hm]
        · refine .quiet rfl ?_ (by intro i m b hb; cases hb)
          simp [waitB, hm, hrr]
  | getMessages r' mix =>
    simp only at hs
    split at hs <;> cases hs <;> exact ⟨h, .quiet rfl rfl (by intro i m b hb; cases hb)⟩
  | enter k =>
    simp only at hs
    split at hs
    · cases hs
    · next i ms hk =>
      split at hs
      · cases hs
      · next r' m hm =>
        split at hs
        · cases hs
        · next m' hst =>
          cases hs
          have hsi : SI r { srv.setObj i r' m' with waiting := srv.waiting.eraseIdx k } :=
            h.setObj hm rfl (fun r'' j hj => hj) (fun e he => List.mem_of_mem_eraseIdx he) rfl
          refine ⟨hsi, ?_⟩
          have hperm : (waitB r srv).Perm ((if r' = r then ms else []) ++ waitB r { srv.setObj i r' m' with waiting := srv.waiting.eraseIdx k }) := by
            have hwe : waitB r { srv.setObj i r' m' with waiting := srv.waiting.eraseIdx k } =
                (srv.waiting.eraseIdx k).flatMap fun e => if (srv.objs[e.1]?).map (·.1) = some r then e.2 else [] := by
              unfold waitB
              refine List.flatMap_congr fun e he => ?_
              have := setObj_fst (m' := m') hm e.1
              exact if_congr (by rw [← this]; rfl) rfl rfl
            rw [hwe]
            have hp := (Mixer.perm_eraseIdx srv.waiting k _ hk).flatMap_right
              (fun e => if (srv.objs[e.1]?).map (·.1) = some r then e.2 else [])
            simp only [List.flatMap_cons, hm, Option.map_some, Option.some.injEq] at hp
            exact hp
          by_cases hrr : r' = r
          · subst hrr
            rw [if_pos rfl] at hperm
            exact .mixed (b := .call ms) (mixerOf_eq h hm) hst ((setObj_mixerOf h hsi hm rfl).1 rfl) hperm (by intro j b' hb; cases hb) nofun nofun nofun
          · refine .quiet ((setObj_mixerOf h hsi hm rfl).2 hrr) ?_ (by intro i m b hb; cases hb)
            have hwe : waitB r { srv.setObj i r' m' with waiting := srv.waiting.eraseIdx k } =
                (srv.waiting.eraseIdx k).flatMap fun e => if (srv.objs[e.1]?).map (·.1) = some r then e.2 else [] := by
              unfold waitB
              refine List.flatMap_congr fun e he => ?_
              have := setObj_fst (m' := m') hm e.1
              exact if_congr (by rw [← this]; rfl) rfl rfl
            rw [hwe]
            unfold waitB
            obtain ⟨hlt, hke⟩ := List.getElem?_eq_some_iff.1 hk
            conv_rhs => rw [← List.take_append_drop k srv.waiting, List.drop_eq_getElem_cons hlt, hke]
            rw [List.eraseIdx_eq_take_drop_succ]
            simp [hm, hrr]
  | work i b =>
    simp only at hs
    split at hs
    · cases hs
    · next r' m hm =>
      have main : ∀ m', Mixer.step (cfg.env r') m b = some m' → callOf b = [] → b ≠ .close → srv' = srv.setObj i r' m' →
          SI r srv' ∧ Effect cfg r srv (.work i b) srv' := by
        rintro m' hst hcall hnc rfl
        have hsi : SI r (srv.setObj i r' m') := h.setObj hm rfl (fun r'' j hj => hj) (fun e he => he) rfl
        exact ⟨hsi, effect_of_mix (b := b) h hsi hm hst rfl rfl hcall (by intro j b' hb; cases hb; exact ⟨rfl, rfl⟩)
          (by rintro rfl; exact ⟨i, rfl⟩) nofun (fun hb => absurd hb hnc)⟩
      cases b <;> simp only at hs
      case call => cases hs
      case close => cases hs
      all_goals
        split at hs
        · cases hs
        · next m' hst =>
          cases hs
          exact main m' hst rfl nofun rfl

/-- An AddMessages call for an open round is queued. -/
theorem queued_of_open {cfg : Server.Config} {r : Nat} {srv srv' : Server.State} {ms : List Messages} {resp : Server.Resp} (h : SI r srv)
    (hs : Server.step cfg srv (.addMessages r ms) = some (srv', resp)) (ho : srv.rounds.lookup r ≠ none) :
    mixerOf r srv' = mixerOf r srv ∧ waitB r srv' = waitB r srv ++ ms := by
  unfold Server.step at hs
  split at hs
  · cases hs
  simp only at hs
  split at hs
  · next hi => exact absurd hi ho
  · next i hi =>
    cases hs
    obtain ⟨m, hm⟩ := h.bound _ _ hi
    exact ⟨rfl, by simp [waitB, hm]⟩

theorem si_init (r : Nat) (b : Bool) : SI r (Server.init b) := by
  refine ⟨?_, ?_, ?_, ?_, ?_⟩ <;> simp [Server.init, GoMap.lookup]

end Resmix.System
