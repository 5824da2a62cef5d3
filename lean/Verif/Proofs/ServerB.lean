import Verif.Proofs.Server
import Verif.Spec.Server
set_option autoImplicit false
namespace Resmix.Server

/-- Only `close` closes. -/
theorem mixer_closed {env : Mixer.Env} {m m' : Mixer.State} {a : Mixer.Action} (h : Mixer.step env m a = some m')
    (ha : a ≠ .close) : m'.closed = m.closed := by
  have hnc := Mixer.step_not_crashed h
  unfold Mixer.step at h
  rw [if_neg (by simp [hnc])] at h
  cases a <;> simp only [Mixer.addStep, Mixer.shuffleStep, Mixer.sendStep, Mixer.finishTask] at h <;>
    (repeat' split at h) <;> first
      | cases h; done
      | (cases h; rfl)
      | exact absurd rfl ha

structure SInv (s : State) (hist : List (Action × Resp)) : Prop where
  bound : ∀ r i, s.rounds.lookup r = some i → ∃ m, s.objs[i]? = some (r, m) ∧ m.closed = false
  open_ : ∀ r, (s.rounds.lookup r).isSome = isOpen hist r
  live : s.crashed = false → ∀ e ∈ s.objs, e.2.crashed = false
  wait : ∀ e ∈ s.waiting, e.1 < s.objs.length

theorem isOpen_snoc (hist : List (Action × Resp)) (c : Action × Resp) (r : Nat) :
    isOpen (hist ++ [c]) r = openAfter r (isOpen hist r) c := by
  simp [isOpen]

theorem newRound_eq {c : Config} {s s' : State} {r : Nat} {loads : GoMap Str Nat} {order : GoMap Str (Nat × Nat)}
    (h : newRound c s r loads order = .ok s') :
    ∃ first rest w m, s.connections = true ∧ c.topo.layers = first :: rest ∧ propagate c.topo first (convertLoads loads) = .ok w ∧
      Mixer.newMixers c.topo (ownMixes c.topo c.host order) w = .ok m ∧
      s' = { s with objs := s.objs ++ [(r, m)], rounds := s.rounds.insert r s.objs.length } := by
  unfold newRound at h
  split at h
  · cases h
  · next hcn =>
    split at h
    · cases h
    · next first rest hl =>
      split at h
      · cases h
      · next w hw =>
        split at h
        · cases h
        · next m hm => cases h; exact ⟨first, rest, w, m, by simpa using hcn, hl, hw, hm, rfl⟩

/-- Replacing an object by one with the same tag. -/
theorem SInv.setObj {s : State} {hist : List (Action × Resp)} (h : SInv s hist) {i r : Nat} {m m' : Mixer.State}
    (hi : s.objs[i]? = some (r, m)) (hcl : m'.closed = m.closed) {s2 : State}
    (h1 : s2.objs = s.objs.set i (r, m')) (h2 : s2.rounds = s.rounds) (h3 : s2.crashed = (s.crashed || m'.crashed))
    (h4 : ∀ e ∈ s2.waiting, e ∈ s.waiting) : SInv s2 hist where
  bound := by
    intro r' i' hr
    rw [h2] at hr
    obtain ⟨mm, hm, hc⟩ := h.bound r' i' hr
    rw [h1]
    have hlt : i' < s.objs.length := (List.getElem?_eq_some_iff.1 hm).1
    by_cases he : i' = i
    · subst he
      rw [hi] at hm; cases hm
      exact ⟨m', by simp [hlt], by rw [hcl]; exact hc⟩
    · exact ⟨mm, by rw [List.getElem?_set_ne (Ne.symm he)]; exact hm, hc⟩
  open_ := by rw [h2]; exact h.open_
  live := by
    intro hc e he
    rw [h3] at hc
    simp only [Bool.or_eq_false_iff] at hc
    rw [h1] at he
    rcases List.mem_or_eq_of_mem_set he with he | he
    · exact h.live hc.1 e he
    · subst he; exact hc.2
  wait := by
    intro e he
    rw [h1, List.length_set]
    exact h.wait e (h4 e he)

theorem SInv.hist {s : State} {hist : List (Action × Resp)} (h : SInv s hist) (c : Action × Resp)
    (hc : ∀ r, openAfter r (isOpen hist r) c = isOpen hist r) : SInv s (hist ++ [c]) :=
  ⟨h.bound, fun r => by rw [isOpen_snoc, hc r]; exact h.open_ r, h.live, h.wait⟩

theorem SInv.step {c : Config} {s s' : State} {a : Action} {resp : Resp} {hist : List (Action × Resp)} (h : SInv s hist)
    (hs : step c s a = some (s', resp)) : SInv s' (hist ++ [(a, resp)]) := by
  unfold Server.step at hs
  split at hs
  · cases hs
  · next hnc =>
  have hnc : s.crashed = false := by simpa using hnc
  cases a with
  | newRound r loads order =>
    simp only at hs
    split at hs
    · next s1 hn =>
      cases hs
      obtain ⟨first, rest, w, m, _, _, _, hm, rfl⟩ := newRound_eq hn
      have hmc : m.closed = false ∧ m.crashed = false := by
        have := Mixer.newMixers_spec hm
        exact ⟨this.2.2.2.2.2.2.2.1, this.2.2.2.2.2.2.2.2.1⟩
      refine ⟨?_, ?_, ?_, ?_⟩
      · intro r' i hr
        simp only [GoMap.lookup_insert] at hr
        split at hr
        · next he => cases hr; subst he; exact ⟨m, by simp, hmc.1⟩
        · obtain ⟨mm, hmm, hcl⟩ := h.bound r' i hr
          have hlt := (List.getElem?_eq_some_iff.1 hmm).1
          exact ⟨mm, by simp only [List.getElem?_append_left hlt]; exact hmm, hcl⟩
      · intro r'
        rw [isOpen_snoc]
        simp only [openAfter, GoMap.lookup_insert]
        by_cases he : r' = r
        · subst he; simp
        · simp only [he, if_false, Ne.symm he]; exact h.open_ r'
      · intro _ e he
        rcases List.mem_append.1 he with he | he
        · exact h.live hnc e he
        · simp at he; subst he; exact hmc.2
      · intro e he
        have := h.wait e he
        simp only [List.length_append]; omega
    · cases hs
      have := h.hist (.newRound r loads order, .fail .panic) (fun r' => rfl)
      exact ⟨this.bound, this.open_, (fun hc => by cases hc), this.wait⟩
    · cases hs
      exact h.hist _ (fun r' => rfl)
  | endRound r =>
    simp only at hs
    split at hs
    · cases hs; exact h.hist _ (fun r' => rfl)
    · next i hr =>
      split at hs
      · cases hs
      · next rr m hi =>
        split at hs
        · cases hs
        · next m' hm =>
          cases hs
          obtain ⟨mm, hmm, hcl⟩ := h.bound r i hr
          rw [hi] at hmm; cases hmm
          refine ⟨?_, ?_, ?_, ?_⟩
          · intro r' i' hr'
            simp only [GoMap.lookup_erase] at hr'
            split at hr'
            · cases hr'
            · next hne =>
              have hr' : s.rounds.lookup r' = some i' := hr'
              obtain ⟨m2, hm2, hc2⟩ := h.bound r' i' hr'
              have : i' ≠ i := by
                rintro rfl
                rw [hi] at hm2; cases hm2
                exact hne rfl
              exact ⟨m2, by simp only [State.setObj]; rw [List.getElem?_set_ne (Ne.symm this)]; exact hm2, hc2⟩
          · intro r'
            rw [isOpen_snoc]
            simp only [openAfter, GoMap.lookup_erase]
            by_cases he : r' = r
            · subst he; simp
            · simp only [he, if_false, Ne.symm he]; exact h.open_ r'
          · intro hc e he
            simp only [State.setObj, Bool.or_eq_false_iff] at hc he
            rcases List.mem_or_eq_of_mem_set he with he | he
            · exact h.live hc.1 e he
            · subst he; exact hc.2
          · intro e he
            simp only [State.setObj, List.length_set]
            exact h.wait e he
  | addMessages r ms =>
    simp only at hs
    split at hs
    · cases hs; exact h.hist _ (fun r' => rfl)
    · next i hr =>
      cases hs
      have h' := h.hist (.addMessages r ms, .pending i) (fun r' => rfl)
      refine ⟨h'.bound, h'.open_, h'.live, ?_⟩
      intro e he
      rcases List.mem_append.1 he with he | he
      · exact h.wait e he
      · simp at he; subst he
        obtain ⟨m, hm, _⟩ := h.bound r i hr
        exact (List.getElem?_eq_some_iff.1 hm).1
  | getMessages r mix =>
    simp only at hs
    split at hs
    · cases hs; exact h.hist _ (fun r' => rfl)
    · cases hs; exact h.hist _ (fun r' => rfl)
  | enter k =>
    simp only at hs
    split at hs
    · cases hs
    · next i ms hk =>
      split at hs
      · cases hs
      · next r m hi =>
        split at hs
        · cases hs
        · next m' hm =>
          cases hs
          refine (h.hist (.enter k, .internal) (fun r' => rfl)).setObj hi (mixer_closed hm (by simp)) rfl rfl rfl ?_
          intro e he
          exact List.mem_of_mem_eraseIdx he
  | work i a =>
    simp only at hs
    split at hs
    · cases hs
    · next r m hi =>
      split at hs
      · cases hs
      · cases hs
      · next hn1 hn2 =>
        split at hs
        · cases hs
        · next m' hm =>
          cases hs
          exact (h.hist (.work i a, .internal) (fun r' => rfl)).setObj hi (mixer_closed hm (by
            intro e; exact hn2 e)) rfl rfl rfl (fun e he => he)

theorem exec_cons_some {c : Config} {s s' : State} {a : Action} {as : List Action} {rs : List Resp}
    (h : exec c s (a :: as) = some (s', rs)) :
    ∃ s1 r rs', step c s a = some (s1, r) ∧ exec c s1 as = some (s', rs') ∧ rs = r :: rs' := by
  simp only [exec] at h
  split at h
  · cases h
  · next s1 r h1 =>
    split at h
    · cases h
    · next s2 rs' h2 => cases h; exact ⟨s1, r, rs', h1, h2, rfl⟩

theorem exec_sinv {c : Config} {s s' : State} {as : List Action} {rs : List Resp} {hist : List (Action × Resp)}
    (h : SInv s hist) (hx : exec c s as = some (s', rs)) : SInv s' (hist ++ as.zip rs) := by
  induction as generalizing s rs hist with
  | nil => cases hx; simpa using h
  | cons a as ih =>
    obtain ⟨s1, r, rs', h1, h2, rfl⟩ := exec_cons_some hx
    have := ih (h.step h1) h2
    simpa using this

theorem sinv_init (conn : Bool) : SInv (init conn) [] :=
  ⟨by simp [init], by simp [init, isOpen], by simp [init], by simp [init]⟩

end Resmix.Server
