import Verif.Props.Server
set_option autoImplicit false
/-
C66, the part that holds.
-/
namespace Resmix.Server

/-- No successful NewRound of the history is for a round that is open at that moment. -/
def NeverReplaced (history : List (Action × Resp)) : Prop :=
  ∀ pre r loads order post, history = pre ++ (.newRound r loads order, .ok) :: post → isOpen pre r = false

/-- Every round object is closed, or its round refers to it. -/
def Released (s : State) : Prop := ∀ (i r : Nat) (m : Mixer.State), s.objs[i]? = some (r, m) → m.closed = true ∨ s.rounds.lookup r = some i

theorem close_closes {env : Mixer.Env} {m m' : Mixer.State} (h : Mixer.step env m .close = some m') : m'.closed = true := by
  have hnc := Mixer.step_not_crashed h
  unfold Mixer.step at h
  rw [if_neg (by simp [hnc])] at h
  simp only at h
  (repeat' split at h) <;> first
    | cases h; done
    | (cases h; rfl)
    | (cases h; assumption)

theorem released_set {s : State} (h : Released s) {i r : Nat} {m m' : Mixer.State} (hi : s.objs[i]? = some (r, m)) (hc : m'.closed = m.closed)
    (l : List (Nat × Mixer.State)) (hl : l = s.objs.set i (r, m')) : ∀ (j r' : Nat) (x : Mixer.State), l[j]? = some (r', x) → x.closed = true ∨ s.rounds.lookup r' = some j := by
  subst hl
  intro j r' x hj
  rw [List.getElem?_set] at hj
  split at hj
  · next hij =>
    subst hij
    split at hj
    · injection hj with hj; injection hj with h1 h2; subst h1; subst h2
      rw [hc]; exact h i r m hi
    · cases hj
  · exact h j r' x hj

theorem released_step {c : Config} {s s' : State} {a : Action} {resp : Resp} {hist : List (Action × Resp)} (h : SInv s hist) (hr : Released s)
    (hs : step c s a = some (s', resp)) (hn : ∀ r loads order, a = .newRound r loads order → resp = .ok → isOpen hist r = false) : Released s' := by
  unfold step at hs
  split at hs
  · cases hs
  cases a with
  | newRound r0 loads order =>
    simp only at hs
    split at hs
    · next s2 hnew =>
      cases hs
      have hop := hn r0 loads order rfl rfl
      have hnone : s.rounds.lookup r0 = none := by have := h.open_ r0; rw [hop] at this; simpa using this
      obtain ⟨first, rest, w, mm, _, _, _, hmm, rfl⟩ := newRound_eq hnew
      intro i r m hi
      simp only [GoMap.lookup_insert] at hi ⊢
      rcases Nat.lt_or_ge i s.objs.length with hlt | hge
      · rw [List.getElem?_append_left hlt] at hi
        rcases hr i r m hi with hcl | hl
        · exact Or.inl hcl
        · right
          rw [if_neg (by rintro rfl; rw [hnone] at hl; cases hl)]
          exact hl
      · have : i = s.objs.length := by
          have := (List.getElem?_eq_some_iff.1 hi).1
          simp at this; omega
        subst this
        simp at hi
        right
        rw [if_pos hi.1.symm]
    · cases hs; exact hr
    · cases hs; exact hr
  | endRound r0 =>
    simp only at hs
    split at hs
    · cases hs; exact hr
    · next i hi =>
      split at hs
      · cases hs
      · next rr m hm =>
        split at hs
        · cases hs
        · next m' hm' =>
          cases hs
          intro j r x hj
          simp only [State.setObj, GoMap.lookup_erase] at hj ⊢
          rw [List.getElem?_set] at hj
          split at hj
          · next hij =>
            split at hj
            · injection hj with hj; injection hj with h1 h2; subst h2
              exact Or.inl (close_closes hm')
            · cases hj
          · next hij =>
            rcases hr j r x hj with hcl | hl
            · exact Or.inl hcl
            · right
              rw [if_neg (by rintro rfl; rw [hi] at hl; injection hl with hl; exact hij hl)]
              exact hl
  | addMessages r0 ms =>
    simp only at hs
    split at hs <;> (cases hs; exact hr)
  | getMessages r0 mix =>
    simp only at hs
    split at hs <;> (cases hs; exact hr)
  | enter k =>
    simp only at hs
    split at hs
    · cases hs
    · split at hs
      · cases hs
      · next hi =>
        split at hs
        · cases hs
        · next hm' => cases hs; exact released_set hr hi (mixer_closed hm' (by simp)) _ rfl
  | work i b =>
    simp only at hs
    split at hs
    · cases hs
    · next hi =>
      split at hs
      · cases hs
      · cases hs
      · next hn1 hn2 =>
        split at hs
        · cases hs
        · next hm' => cases hs; exact released_set hr hi (mixer_closed hm' (fun e => hn2 e)) _ rfl

theorem released_exec {c : Config} {as : List Action} {s s' : State} {rs : List Resp} {hist : List (Action × Resp)} (h : SInv s hist) (hr : Released s)
    (hn : NeverReplaced (hist ++ as.zip rs)) (hx : exec c s as = some (s', rs)) : Released s' := by
  induction as generalizing s rs hist with
  | nil => cases hx; exact hr
  | cons a as ih =>
    obtain ⟨s1, r, rs', h1, h2, rfl⟩ := exec_cons_some hx
    refine ih (h.step h1) (released_step h hr h1 ?_) (by simpa using hn) h2
    rintro r0 loads order rfl rfl
    exact hn hist r0 loads order (as.zip rs') (by simp)

/-- C66, what holds: if no NewRound replaces a round that is still open, then at any time, in every interleaving of calls, handlers and goroutines, every round object ever
made has been closed (its worker pool told to stop), or its round is still open and refers to it - so that EndRound closes it. In particular everything is released once no
round is open. -/
theorem C66_not_replaced_partial (c : Config) (conn : Bool) (acts : List Action) (s : State) (rs : List Resp) (hx : exec c (init conn) acts = some (s, rs))
    (hn : NeverReplaced (acts.zip rs)) :
    (∀ (i r : Nat) (m : Mixer.State), s.objs[i]? = some (r, m) → m.closed = true ∨ (isOpen (acts.zip rs) r = true ∧ s.rounds.lookup r = some i)) ∧
    ((∀ r, isOpen (acts.zip rs) r = false) → ∀ x ∈ s.objs, x.2.closed = true) := by
  have h := exec_sinv (sinv_init conn) hx
  simp only [List.nil_append] at h
  have hr : Released s := released_exec (hist := []) (sinv_init conn) (by intro i r m hi; simp [init] at hi) (by simpa using hn) hx
  have hop : ∀ r i, s.rounds.lookup r = some i → isOpen (acts.zip rs) r = true := by
    intro r i hl
    rw [← h.open_ r, hl]; rfl
  refine ⟨fun i r m hi => (hr i r m hi).imp id (fun hl => ⟨hop r i hl, hl⟩), ?_⟩
  rintro hall ⟨r, m⟩ hx
  obtain ⟨i, hi⟩ := List.getElem?_of_mem hx
  rcases hr i r m hi with hcl | hl
  · exact hcl
  · have := hop r i hl; rw [hall r] at this; cases this

/-- Two rounds opened and ended, the first number used again: nothing is replaced, three objects. -/
example : ∃ s rs, exec Ex.c (init true) [Ex.round1, .newRound 2 Ex.loads Mixer.Ex.topo.mixes, .endRound 1, Ex.round1, .endRound 2, .endRound 1] = some (s, rs) ∧
    s.objs.length = 3 ∧
    NeverReplaced ([Ex.round1, .newRound 2 Ex.loads Mixer.Ex.topo.mixes, .endRound 1, Ex.round1, .endRound 2, .endRound 1].zip rs) ∧
    ∀ r, isOpen ([Ex.round1, .newRound 2 Ex.loads Mixer.Ex.topo.mixes, .endRound 1, Ex.round1, .endRound 2, .endRound 1].zip rs) r = false := by
  refine ⟨_, _, rfl, rfl, ?_, ?_⟩
  · intro pre r loads order post h
    simp only [List.zip_cons_cons, List.zip_nil_right] at h
    have hlen := congrArg List.length h
    match pre with
    | [] => simp at h; rfl
    | [a] => simp [Ex.round1] at h; obtain ⟨rfl, ⟨rfl, -⟩, -⟩ := h; rfl
    | [a, b] => simp [Ex.round1] at h
    | [a, b, c] => simp [Ex.round1] at h; obtain ⟨rfl, rfl, rfl, ⟨rfl, -⟩, -⟩ := h; rfl
    | [a, b, c, d] => simp [Ex.round1] at h
    | [a, b, c, d, e] => simp [Ex.round1] at h
    | a :: b :: c :: d :: e :: f :: rest => simp at hlen
  · intro r
    simp only [isOpen, List.zip_cons_cons, List.zip_nil_right, List.foldl_cons, List.foldl_nil, openAfter, Ex.round1]
    by_cases h1 : 1 = r <;> by_cases h2 : 2 = r <;> simp [h1, h2]

end Resmix.Server
