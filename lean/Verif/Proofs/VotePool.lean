import Verif.Spec.VotePool
import Verif.Proofs.SumBy
import Verif.Proofs.GoMap
set_option autoImplicit false
/-
Invariants of the vote checks with workers.
-/
namespace Resmix.Tibe.VotePool
variable {B : Bls}

def tk (c i : Nat) (t : Task B) : Nat := if t.call = c ∧ t.ix = i then 1 else 0

def wk (c i : Nat) : Worker B → Nat
  | .idle => 0
  | .checking t => tk c i t
  | .closing t => tk c i t

/-- How many tasks for vote `i` of call `c` there are in the queue and with workers. -/
def cnt (s : State B) (c i : Nat) : Nat := sumBy (tk c i) s.queue + sumBy (wk c i) s.workers

theorem sumBy_pos {α : Type} {f : α → Nat} {l : List α} {a : α} (h : a ∈ l) (hf : 0 < f a) : 0 < sumBy f l := by
  unfold sumBy
  induction l with
  | nil => cases h
  | cons x l ih =>
    rw [List.map_cons, List.sum_cons]
    rcases List.mem_cons.1 h with rfl | h
    · omega
    · have := ih h; omega

theorem sumBy_cons {α : Type} (f : α → Nat) (a : α) (l : List α) : sumBy f (a :: l) = f a + sumBy f l := rfl

theorem sumBy_append {α : Type} (f : α → Nat) (l m : List α) : sumBy f (l ++ m) = sumBy f l + sumBy f m := by
  unfold sumBy; rw [List.map_append, List.sum_append_nat]

theorem tk_self (t : Task B) : tk t.call t.ix t = 1 := by simp [tk]

/-- A task of the queue or of a worker belongs to a call. -/
def Sane (s : State B) (t : Task B) : Prop :=
  ∃ cl, s.calls[t.call]? = some cl ∧ t.ix < cl.sent ∧ cl.req.votes[t.ix]? = some t.vote ∧ t.expoly = cl.expoly

/-- The call's share was found at its start, and it has votes. -/
def Begun (cl : Call B) : Prop :=
  cl.req.votes ≠ [] ∧ match cl.req with
  | .validate name _ => ∃ s, cl.start.shares.lookup name = some s ∧ cl.expoly = s.expoly
  | .reconstruct name _ => ∃ s, cl.start.shares.lookup name = some s ∧ cl.expoly = s.expoly

/-- A call is where its program counter says, with the results so far. -/
def CallOk (cl : Call B) : Prop :=
  match cl.pc with
  | .sending i => Begun cl ∧ cl.sent = i ∧ i < cl.req.votes.length
  | .waiting i => Begun cl ∧ cl.sent = cl.req.votes.length ∧ i < cl.req.votes.length ∧ ∀ (j : Nat) v, j < i → cl.req.votes[j]? = some v → Node.checkVote cl.expoly v = .ok ()
  | .done r => r = answer cl.start cl.req ∧ cl.sent ≤ cl.req.votes.length

/-- What is on a response channel is the result of the check. -/
def RespOk (e : ExponentPoly B) (v : Vote B) : Resp → Prop
  | .pending => True
  | .sent f => Node.checkVote e v = .error f
  | .closed none => Node.checkVote e v = .ok ()
  | .closed (some f) => Node.checkVote e v = .error f

structure Inv (s : State B) : Prop where
  saneQ : ∀ t ∈ s.queue, Sane s t
  saneW : ∀ t, (Worker.checking t ∈ s.workers ∨ Worker.closing t ∈ s.workers) → Sane s t
  queued : ∀ t ∈ s.queue, s.resps t.call t.ix = .pending
  checking : ∀ t, Worker.checking t ∈ s.workers → s.resps t.call t.ix = .pending
  closing : ∀ t, Worker.closing t ∈ s.workers → (Node.checkVote t.expoly t.vote = .ok () ∧ s.resps t.call t.ix = .pending) ∨
    ∃ f, Node.checkVote t.expoly t.vote = .error f ∧ s.resps t.call t.ix = .sent f
  one : ∀ c i, cnt s c i ≤ 1
  there : ∀ (c : Nat) (cl : Call B) (i : Nat), s.calls[c]? = some cl → i < cl.sent → cnt s c i = 1 ∨ ∃ x, s.resps c i = .closed x
  none : ∀ c i, s.resps c i ≠ .pending → ∃ cl v, s.calls[c]? = some cl ∧ i < cl.sent ∧ cl.req.votes[i]? = some v ∧ RespOk cl.expoly v (s.resps c i)
  fresh : ∀ c i, (∀ cl, s.calls[c]? = some cl → cl.sent ≤ i) → cnt s c i = 0
  calls : ∀ (c : Nat) (cl : Call B), s.calls[c]? = some cl → CallOk cl

theorem cnt_queue {s : State B} {t : Task B} (h : t ∈ s.queue) : 0 < cnt s t.call t.ix := by
  have := sumBy_pos (f := tk t.call t.ix) h (by rw [tk_self]; omega)
  unfold cnt; omega

theorem cnt_worker {s : State B} {t : Task B} (h : Worker.checking t ∈ s.workers ∨ Worker.closing t ∈ s.workers) : 0 < cnt s t.call t.ix := by
  rcases h with h | h
  all_goals
    have := sumBy_pos (f := wk t.call t.ix) h (by simp only [wk, tk_self]; omega)
    unfold cnt; omega

theorem setResp_self (f : Nat → Nat → Resp) (c i : Nat) (r : Resp) : setResp f c i r c i = r := by simp [setResp]

theorem setResp_ne (f : Nat → Nat → Resp) {c i c' i' : Nat} (r : Resp) (h : ¬ (c' = c ∧ i' = i)) : setResp f c i r c' i' = f c' i' := by simp [setResp, h]

theorem forM_cons' (e : ExponentPoly B) (v : Vote B) (l : List (Vote B)) : (v :: l).forM (Node.checkVote e) = (Node.checkVote e v >>= fun _ => l.forM (Node.checkVote e)) := rfl

theorem forM_ok {e : ExponentPoly B} {l : List (Vote B)} (h : ∀ (j : Nat) v, l[j]? = some v → Node.checkVote e v = .ok ()) : l.forM (Node.checkVote e) = .ok () := by
  induction l with
  | nil => rfl
  | cons v l ih =>
    rw [forM_cons', h 0 v rfl]
    exact ih (fun j w hj => h (j + 1) w hj)

theorem forM_error {e : ExponentPoly B} {l : List (Vote B)} {i : Nat} {v : Vote B} {f : Fail} (hv : l[i]? = some v) (hf : Node.checkVote e v = .error f)
    (h : ∀ (j : Nat) w, j < i → l[j]? = some w → Node.checkVote e w = .ok ()) : l.forM (Node.checkVote e) = .error f := by
  induction l generalizing i with
  | nil => cases hv
  | cons w l ih =>
    cases i with
    | zero =>
      simp only [List.getElem?_cons_zero, Option.some.injEq] at hv
      subst hv
      rw [forM_cons', hf]; rfl
    | succ i =>
      rw [forM_cons', h 0 w (by omega) rfl]
      exact ih hv (fun j x hj hx => h (j + 1) x (by omega) hx)

theorem answer_ok {cl : Call B} (hb : Begun cl) (h : ∀ (j : Nat) v, cl.req.votes[j]? = some v → Node.checkVote cl.expoly v = .ok ()) :
    final cl.req cl.expoly = answer cl.start cl.req := by
  unfold Begun at hb
  obtain ⟨hne, hb⟩ := hb
  cases hr : cl.req with
  | validate name v =>
    rw [hr] at hb h
    obtain ⟨s, hs, he⟩ := hb
    have := h 0 v rfl
    simp only [final, answer, Node.validateVote, hs, ← he, this]; rfl
  | reconstruct name votes =>
    rw [hr] at hb h hne
    obtain ⟨s, hs, he⟩ := hb
    have hlen : votes.length ≠ 0 := fun h0 => hne (List.length_eq_zero_iff.1 h0)
    simp only [final, answer, Node.reconstructDecrypter, hs, ← he, if_neg hlen]
    rw [forM_ok (l := votes) h]; rfl

theorem answer_error {cl : Call B} (hb : Begun cl) {i : Nat} {v : Vote B} {f : Fail} (hv : cl.req.votes[i]? = some v) (hf : Node.checkVote cl.expoly v = .error f)
    (h : ∀ (j : Nat) w, j < i → cl.req.votes[j]? = some w → Node.checkVote cl.expoly w = .ok ()) : .error f = answer cl.start cl.req := by
  unfold Begun at hb
  obtain ⟨hne, hb⟩ := hb
  cases hr : cl.req with
  | validate name w =>
    rw [hr] at hb h hv
    obtain ⟨s, hs, he⟩ := hb
    cases i with
    | zero =>
      simp only [Req.votes, List.getElem?_cons_zero, Option.some.injEq] at hv
      subst hv
      simp only [answer, Node.validateVote, hs, ← he, hf]; rfl
    | succ i => simp [Req.votes] at hv
  | reconstruct name votes =>
    rw [hr] at hb h hne hv
    obtain ⟨s, hs, he⟩ := hb
    have hlen : votes.length ≠ 0 := fun h0 => hne (List.length_eq_zero_iff.1 h0)
    simp only [answer, Node.reconstructDecrypter, hs, ← he, if_neg hlen]
    rw [forM_error (l := votes) hv hf h]; rfl

theorem begin_ok (n : Node B) (req : Req B) : CallOk (begin n req) ∧ (begin n req).sent = 0 ∧ (begin n req).req = req ∧ (begin n req).start = n := by
  cases req with
  | validate name v =>
    simp only [begin]
    cases h : GoMap.lookup n.shares name with
    | none => exact ⟨⟨by simp only [answer, Node.validateVote, h]; rfl, Nat.zero_le _⟩, rfl, rfl, rfl⟩
    | some s => exact ⟨⟨⟨by simp [Req.votes], s, h, rfl⟩, rfl, by simp [Req.votes]⟩, rfl, rfl, rfl⟩
  | reconstruct name votes =>
    simp only [begin]
    split
    · next h0 => exact ⟨⟨by simp only [answer, Node.reconstructDecrypter, if_pos h0]; rfl, Nat.zero_le _⟩, rfl, rfl, rfl⟩
    · next h0 =>
      cases h : GoMap.lookup n.shares name with
      | none => exact ⟨⟨by simp only [answer, Node.reconstructDecrypter, if_neg h0, h]; rfl, Nat.zero_le _⟩, rfl, rfl, rfl⟩
      | some s => exact ⟨⟨⟨fun h1 => h0 (List.length_eq_zero_iff.2 h1), s, h, rfl⟩, rfl, Nat.pos_of_ne_zero h0⟩, rfl, rfl, rfl⟩

/-- The calls change, but not what they are about nor what they have handed over. -/
theorem Inv.newCalls {s : State B} (h : Inv s) (calls' : List (Call B))
    (h1 : ∀ (c : Nat) (cl : Call B), s.calls[c]? = some cl → ∃ cl', calls'[c]? = some cl' ∧ cl'.sent = cl.sent ∧ cl'.req = cl.req ∧ cl'.expoly = cl.expoly)
    (h2 : ∀ (c : Nat) (cl' : Call B), calls'[c]? = some cl' → (∃ cl, s.calls[c]? = some cl ∧ cl'.sent = cl.sent) ∨ cl'.sent = 0)
    (h3 : ∀ (c : Nat) (cl' : Call B), calls'[c]? = some cl' → CallOk cl') : Inv { s with calls := calls' } := by
  have sane : ∀ t, Sane s t → Sane { s with calls := calls' } t := by
    rintro t ⟨cl, a1, a2, a3, a4⟩
    obtain ⟨cl', b1, b2, b3, b4⟩ := h1 _ _ a1
    exact ⟨cl', b1, by omega, by rw [b3]; exact a3, by rw [b4]; exact a4⟩
  refine ⟨fun t ht => sane t (h.saneQ t ht), fun t ht => sane t (h.saneW t ht), h.queued, h.checking, h.closing, h.one, ?_, ?_, ?_, h3⟩
  · intro c cl' i hc hi
    rcases h2 c cl' hc with ⟨cl, a1, a2⟩ | a0
    · exact h.there c cl i a1 (by omega)
    · omega
  · intro c i hne
    obtain ⟨cl, v, a1, a2, a3, a4⟩ := h.none c i hne
    obtain ⟨cl', b1, b2, b3, b4⟩ := h1 _ _ a1
    exact ⟨cl', v, b1, by omega, by rw [b3]; exact a3, by rw [b4]; exact a4⟩
  · intro c i hc
    refine h.fresh c i (fun cl hcl => ?_)
    obtain ⟨cl', b1, b2, -⟩ := h1 _ _ hcl
    have := hc cl' b1; omega

theorem Inv.call {s : State B} (h : Inv s) (req : Req B) : Inv { s with calls := s.calls ++ [begin s.node req] } := by
  refine h.newCalls _ ?_ ?_ ?_
  · intro c cl hc
    exact ⟨cl, by rw [List.getElem?_append_left (List.getElem?_eq_some_iff.1 hc).1]; exact hc, rfl, rfl, rfl⟩
  all_goals
    intro c cl hc
    rw [List.getElem?_append] at hc
    split at hc
  · exact Or.inl ⟨cl, hc, rfl⟩
  · rw [List.getElem?_singleton] at hc
    split at hc
    · injection hc with hc; subst hc; exact Or.inr (begin_ok _ _).2.1
    · cases hc
  · exact h.calls c cl hc
  · rw [List.getElem?_singleton] at hc
    split at hc
    · injection hc with hc; subst hc; exact (begin_ok _ _).1
    · cases hc

/-- A call moves on without handing anything over. -/
theorem Inv.move {s : State B} (h : Inv s) {c : Nat} {cl : Call B} (hc : s.calls[c]? = some cl) (pc : Pc B) (hok : CallOk { cl with pc := pc }) :
    Inv { s with calls := s.calls.set c { cl with pc := pc } } := by
  have hlt := (List.getElem?_eq_some_iff.1 hc).1
  refine h.newCalls _ ?_ ?_ ?_
  · intro c' cl' hc'
    by_cases he : c = c'
    · subst he
      rw [hc] at hc'; injection hc' with hc'; subst hc'
      exact ⟨_, List.getElem?_set_self hlt, rfl, rfl, rfl⟩
    · exact ⟨cl', by rw [List.getElem?_set_ne he]; exact hc', rfl, rfl, rfl⟩
  all_goals
    intro c' cl' hc'
    by_cases he : c = c'
  · subst he
    rw [List.getElem?_set_self hlt] at hc'; injection hc' with hc'; subst hc'
    exact Or.inl ⟨cl, hc, rfl⟩
  · rw [List.getElem?_set_ne he] at hc'
    exact Or.inl ⟨cl', hc', rfl⟩
  · subst he
    rw [List.getElem?_set_self hlt] at hc'; injection hc' with hc'; subst hc'
    exact hok
  · rw [List.getElem?_set_ne he] at hc'
    exact h.calls c' cl' hc'

theorem Inv.send {s : State B} (h : Inv s) {c i : Nat} {cl : Call B} {v : Vote B} (hc : s.calls[c]? = some cl) (hpc : cl.pc = .sending i) (hv : cl.req.votes[i]? = some v) :
    Inv { s with
      queue := s.queue ++ [{ call := c, ix := i, vote := v, expoly := cl.expoly }]
      calls := s.calls.set c { cl with sent := i + 1, pc := if i + 1 < cl.req.votes.length then .sending (i + 1) else .waiting 0 } } := by
  have hlt := (List.getElem?_eq_some_iff.1 hc).1
  have hcall := h.calls c cl hc
  unfold CallOk at hcall
  rw [hpc] at hcall
  obtain ⟨hb, hs, hi⟩ := hcall
  -- nothing of this slot so far
  have hz : cnt s c i = 0 := h.fresh c i (fun cl' hcl' => by rw [hc] at hcl'; injection hcl' with hcl'; subst hcl'; omega)
  have hpend : s.resps c i = .pending := by
    by_contra hne
    obtain ⟨cl', v', a1, a2, -⟩ := h.none c i hne
    rw [hc] at a1; injection a1 with a1; subst a1; omega
  set cl' : Call B := { cl with sent := i + 1, pc := if i + 1 < cl.req.votes.length then .sending (i + 1) else .waiting 0 } with hcl'
  set t0 : Task B := { call := c, ix := i, vote := v, expoly := cl.expoly } with ht0
  set s' : State B := { s with queue := s.queue ++ [t0], calls := s.calls.set c cl' } with hs'
  have lk : ∀ (c' : Nat) (x : Call B), s'.calls[c']? = some x → (c' = c ∧ x = cl') ∨ (c' ≠ c ∧ s.calls[c']? = some x) := by
    intro c' x hx
    by_cases he : c = c'
    · subst he
      have : s'.calls[c]? = some cl' := List.getElem?_set_self hlt
      rw [this] at hx; injection hx with hx
      exact Or.inl ⟨rfl, hx.symm⟩
    · have : s'.calls[c']? = s.calls[c']? := List.getElem?_set_ne he
      rw [this] at hx
      exact Or.inr ⟨Ne.symm he, hx⟩
  have lkc : s'.calls[c]? = some cl' := List.getElem?_set_self hlt
  have lkn : ∀ c', c' ≠ c → s'.calls[c']? = s.calls[c']? := fun c' he => List.getElem?_set_ne (Ne.symm he)
  have hcnt : ∀ c' i', cnt s' c' i' = cnt s c' i' + (if c = c' ∧ i = i' then 1 else 0) := by
    intro c' i'
    simp only [cnt, hs', sumBy_append, sumBy_cons, tk, ht0]
    show _ + (_ + 0) + _ = _
    omega
  have sane : ∀ t, Sane s t → Sane s' t := by
    rintro t ⟨x, a1, a2, a3, a4⟩
    by_cases he : t.call = c
    · rw [he, hc] at a1; injection a1 with a1; subst a1
      exact ⟨cl', by rw [he]; exact lkc, by simp only [hcl']; omega, a3, a4⟩
    · exact ⟨x, by rw [lkn _ he]; exact a1, a2, a3, a4⟩
  refine ⟨?_, fun t ht => sane t (h.saneW t ht), ?_, h.checking, h.closing, ?_, ?_, ?_, ?_, ?_⟩
  · intro t ht
    rcases List.mem_append.1 ht with ht | ht
    · exact sane t (h.saneQ t ht)
    · rw [List.mem_singleton] at ht; subst ht
      exact ⟨cl', lkc, by simp only [hcl', ht0]; omega, hv, rfl⟩
  · intro t ht
    rcases List.mem_append.1 ht with ht | ht
    · exact h.queued t ht
    · rw [List.mem_singleton] at ht; subst ht; exact hpend
  · intro c' i'
    rw [hcnt]
    split
    · next he => obtain ⟨rfl, rfl⟩ := he; omega
    · exact h.one c' i'
  · intro c' x i' hx hi'
    rw [hcnt]
    rcases lk c' x hx with ⟨rfl, rfl⟩ | ⟨hne, hx⟩
    · by_cases he : i = i'
      · subst he; left; rw [if_pos ⟨rfl, rfl⟩]; omega
      · rw [if_neg (fun h => he h.2)]
        exact h.there _ cl i' hc (by simp only [hcl'] at hi'; omega)
    · rw [if_neg (fun h => hne h.1.symm)]
      exact h.there c' x i' hx hi'
  · intro c' i' hne
    obtain ⟨x, w, a1, a2, a3, a4⟩ := h.none c' i' hne
    by_cases he : c' = c
    · subst he
      rw [hc] at a1; injection a1 with a1; subst a1
      exact ⟨cl', w, lkc, by simp only [hcl']; omega, a3, a4⟩
    · exact ⟨x, w, by rw [lkn _ he]; exact a1, a2, a3, a4⟩
  · intro c' i' hfr
    rw [hcnt]
    by_cases he : c' = c
    · subst he
      have := hfr cl' lkc
      simp only [hcl'] at this
      rw [if_neg (fun h => by omega)]
      exact h.fresh _ i' (fun x hx => by rw [hc] at hx; injection hx with hx; subst hx; omega)
    · rw [if_neg (fun h => he h.1.symm)]
      exact h.fresh _ i' (fun x hx => hfr x (by rw [lkn _ he]; exact hx))
  · intro c' x hx
    rcases lk c' x hx with ⟨rfl, rfl⟩ | ⟨hne, hx⟩
    · unfold CallOk
      simp only [hcl']
      by_cases hl : i + 1 < cl.req.votes.length
      · rw [if_pos hl]; exact ⟨hb, rfl, hl⟩
      · rw [if_neg hl]
        exact ⟨hb, by show i + 1 = cl.req.votes.length; omega, by show 0 < cl.req.votes.length; omega, fun j w hj => by omega⟩
    · exact h.calls c' x hx


theorem mem_set {α : Type} {l : List α} {w : Nat} {x y : α} (z : α) (h : x ∈ l.set w y) : x = y ∨ x ∈ l.set w z := by
  obtain ⟨j, hj⟩ := List.mem_iff_getElem?.1 h
  by_cases he : w = j
  · subst he
    rw [List.getElem?_set] at hj
    split at hj
    · split at hj
      · injection hj with hj; exact Or.inl hj.symm
      · cases hj
    · next hn => exact absurd rfl hn
  · rw [List.getElem?_set_ne he] at hj
    exact Or.inr (List.mem_iff_getElem?.2 ⟨j, by rw [List.getElem?_set_ne he]; exact hj⟩)

theorem mem_of_set {α : Type} {l : List α} {w : Nat} {x y : α} (h : x ∈ l.set w y) : x = y ∨ x ∈ l :=
  (List.mem_or_eq_of_mem_set h).symm

/-- A worker's task is the only one of its slot. -/
theorem Inv.alone {s : State B} (h : Inv s) {w : Nat} {t : Task B} {x : Worker B} (hw : s.workers[w]? = some x) (hx : x = .checking t ∨ x = .closing t) :
    (∀ u ∈ s.queue, ¬ (u.call = t.call ∧ u.ix = t.ix)) ∧
    ∀ u, (Worker.checking u ∈ s.workers.set w .idle ∨ Worker.closing u ∈ s.workers.set w .idle) → ¬ (u.call = t.call ∧ u.ix = t.ix) := by
  have h1 : wk t.call t.ix x = 1 := by rcases hx with rfl | rfl <;> exact tk_self t
  have h2 := sum_set (wk t.call t.ix) s.workers w x .idle hw
  have h3 : wk t.call t.ix (.idle : Worker B) = 0 := rfl
  have h4 := h.one t.call t.ix
  unfold cnt at h4
  constructor
  · rintro u hu ⟨e1, e2⟩
    have := sumBy_pos (f := tk t.call t.ix) hu (by rw [← e1, ← e2, tk_self]; omega)
    omega
  · rintro u hu ⟨e1, e2⟩
    have : 0 < sumBy (wk t.call t.ix) (s.workers.set w .idle) := by
      rcases hu with hu | hu
      all_goals exact sumBy_pos hu (by simp only [wk]; rw [← e1, ← e2, tk_self]; omega)
    omega

theorem Inv.recv {s s' : State B} (h : Inv s) {c : Nat} (hcr : s.crashed = false) (hs : step s (.recv c) = some s') : Inv s' ∧ s'.crashed = false := by
  unfold VotePool.step at hs
  rw [if_neg (by rw [hcr]; decide)] at hs
  dsimp only at hs
  split at hs
  next cl hc =>
    split at hs
    next i hpc =>
      have hcall := h.calls c cl hc
      unfold CallOk at hcall
      rw [hpc] at hcall
      obtain ⟨hb, hsent, hi, hprev⟩ := hcall
      have err : ∀ f, (s.resps c i = .sent f ∨ s.resps c i = .closed (some f)) → Inv { s with calls := s.calls.set c { cl with pc := .done (.error f) } } := by
        intro f hf
        obtain ⟨cl', v, a1, a2, a3, a4⟩ := h.none c i (by rcases hf with hf | hf <;> rw [hf] <;> exact fun h => by cases h)
        rw [hc] at a1; injection a1 with a1; subst a1
        refine h.move hc _ ⟨answer_error hb a3 ?_ hprev, by show cl.sent ≤ cl.req.votes.length; omega⟩
        rcases hf with hf | hf <;> rw [hf] at a4 <;> exact a4
      split at hs
      next => cases hs
      next f hf => injection hs with hs; subst hs; exact ⟨err f (Or.inl hf), hcr⟩
      next f hf => injection hs with hs; subst hs; exact ⟨err f (Or.inr hf), hcr⟩
      next hf =>
        injection hs with hs; subst hs
        refine ⟨?_, hcr⟩
        obtain ⟨cl', v, a1, a2, a3, a4⟩ := h.none c i (by rw [hf]; exact fun h => by cases h)
        rw [hc] at a1; injection a1 with a1; subst a1
        rw [hf] at a4
        have hprev' : ∀ (j : Nat) u, j < i + 1 → cl.req.votes[j]? = some u → Node.checkVote cl.expoly u = .ok () := by
          intro j u hj hu
          by_cases he : j = i
          · subst he; rw [a3] at hu; injection hu with hu; subst hu; exact a4
          · exact hprev j u (by omega) hu
        refine h.move hc _ ?_
        unfold CallOk
        by_cases hl : i + 1 < cl.req.votes.length
        · simp only [if_pos hl]; exact ⟨hb, hsent, hl, hprev'⟩
        · simp only [if_neg hl]
          exact ⟨answer_ok hb (fun j u hu => hprev' j u (by have := (List.getElem?_eq_some_iff.1 hu).1; omega) hu), by show cl.sent ≤ cl.req.votes.length; omega⟩
    next => cases hs
  next => cases hs

theorem Inv.take {s s' : State B} (h : Inv s) {w : Nat} (hcr : s.crashed = false) (hs : step s (.take w) = some s') : Inv s' ∧ s'.crashed = false := by
  unfold VotePool.step at hs
  rw [if_neg (by rw [hcr]; decide)] at hs
  dsimp only at hs
  split at hs
  next hw =>
    split at hs
    next t q hq =>
      injection hs with hs; subst hs
      refine ⟨?_, hcr⟩
      have hcnt : ∀ c i, cnt { s with queue := q, workers := s.workers.set w (.checking t) } c i = cnt s c i := by
        intro c i
        have := sum_set (wk c i) s.workers w .idle (.checking t) hw
        simp only [cnt, hq, sumBy_cons]
        simp only [wk] at this ⊢
        omega
      have hsub : ∀ u ∈ q, u ∈ s.queue := fun u hu => by rw [hq]; exact List.mem_cons_of_mem _ hu
      have ht : t ∈ s.queue := by rw [hq]; exact List.mem_cons_self
      refine ⟨fun u hu => h.saneQ u (hsub u hu), ?_, fun u hu => h.queued u (hsub u hu), ?_, ?_, fun c i => by rw [hcnt]; exact h.one c i, ?_, h.none, ?_, h.calls⟩
      · rintro u (hu | hu)
        · rcases mem_of_set hu with hu | hu
          · injection hu with hu; subst hu; exact h.saneQ u ht
          · exact h.saneW u (Or.inl hu)
        · rcases mem_of_set hu with hu | hu
          · cases hu
          · exact h.saneW u (Or.inr hu)
      · intro u hu
        rcases mem_of_set hu with hu | hu
        · injection hu with hu; subst hu; exact h.queued u ht
        · exact h.checking u hu
      · intro u hu
        rcases mem_of_set hu with hu | hu
        · cases hu
        · exact h.closing u hu
      · intro c cl i hc hi; rw [hcnt]; exact h.there c cl i hc hi
      · intro c i hc; rw [hcnt]; exact h.fresh c i hc
    next => cases hs
  next => cases hs

/-- A worker has checked its task: the result, if an error, is on the channel. -/
theorem Inv.checked {s : State B} (h : Inv s) {w : Nat} {t : Task B} (hw : s.workers[w]? = some (.checking t)) (r : Resp)
    (hr : (Node.checkVote t.expoly t.vote = .ok () ∧ r = .pending) ∨ ∃ f, Node.checkVote t.expoly t.vote = .error f ∧ r = .sent f) :
    Inv { s with workers := s.workers.set w (.closing t), resps := setResp s.resps t.call t.ix r } := by
  have hm : Worker.checking t ∈ s.workers := List.mem_iff_getElem?.2 ⟨w, hw⟩
  obtain ⟨al1, al2⟩ := h.alone hw (Or.inl rfl)
  have hcnt : ∀ c i, cnt { s with workers := s.workers.set w (.closing t), resps := setResp s.resps t.call t.ix r } c i = cnt s c i := by
    intro c i
    have := sum_set (wk c i) s.workers w (.checking t) (.closing t) hw
    simp only [cnt]
    simp only [wk] at this ⊢
    omega
  refine ⟨h.saneQ, ?_, ?_, ?_, ?_, fun c i => by rw [hcnt]; exact h.one c i, ?_, ?_, ?_, h.calls⟩
  · rintro u (hu | hu)
    · rcases mem_of_set hu with hu | hu
      · cases hu
      · exact h.saneW u (Or.inl hu)
    · rcases mem_of_set hu with hu | hu
      · injection hu with hu; subst hu; exact h.saneW u (Or.inl hm)
      · exact h.saneW u (Or.inr hu)
  · intro u hu
    show setResp s.resps t.call t.ix r u.call u.ix = _
    rw [setResp_ne _ _ (al1 u hu)]; exact h.queued u hu
  · intro u hu
    show setResp s.resps t.call t.ix r u.call u.ix = _
    rcases mem_set .idle hu with he | hu'
    · cases he
    · rw [setResp_ne _ _ (al2 u (Or.inl hu'))]
      rcases mem_of_set hu with he | hu
      · cases he
      · exact h.checking u hu
  · intro u hu
    show (_ ∧ setResp s.resps t.call t.ix r u.call u.ix = _) ∨ ∃ f, _ ∧ setResp s.resps t.call t.ix r u.call u.ix = _
    rcases mem_set .idle hu with he | hu'
    · injection he with he; subst he
      rw [setResp_self]; exact hr
    · rw [setResp_ne _ _ (al2 u (Or.inr hu'))]
      rcases mem_of_set hu' with he | hu
      · cases he
      · exact h.closing u hu
  · intro c cl i hc hi
    rw [hcnt]
    rcases h.there c cl i hc hi with h1 | ⟨x, hx⟩
    · exact Or.inl h1
    · right
      refine ⟨x, ?_⟩
      show setResp s.resps t.call t.ix r c i = _
      rw [setResp_ne]
      · exact hx
      · rintro ⟨rfl, rfl⟩; rw [h.checking t hm] at hx; cases hx
  · intro c i hne
    change setResp s.resps t.call t.ix r c i ≠ _ at hne
    show ∃ (cl : Call B) (v : Vote B), _ ∧ _ ∧ _ ∧ RespOk cl.expoly v (setResp s.resps t.call t.ix r c i)
    by_cases he : c = t.call ∧ i = t.ix
    · obtain ⟨rfl, rfl⟩ := he
      rw [setResp_self] at hne ⊢
      obtain ⟨cl, a1, a2, a3, a4⟩ := h.saneW t (Or.inl hm)
      refine ⟨cl, t.vote, a1, a2, a3, ?_⟩
      rcases hr with ⟨-, rfl⟩ | ⟨f, hf, rfl⟩
      · exact absurd rfl hne
      · rw [← a4]; exact hf
    · rw [setResp_ne _ _ he] at hne ⊢
      exact h.none c i hne
  · intro c i hc; rw [hcnt]; exact h.fresh c i hc

/-- A worker closes the channel of its task. -/
theorem Inv.closed {s : State B} (h : Inv s) {w : Nat} {t : Task B} (hw : s.workers[w]? = some (.closing t)) (x : Option Fail)
    (hx : (s.resps t.call t.ix = .pending ∧ x = Option.none) ∨ ∃ f, s.resps t.call t.ix = .sent f ∧ x = some f) :
    Inv { s with workers := s.workers.set w .idle, resps := setResp s.resps t.call t.ix (.closed x) } := by
  have hm : Worker.closing t ∈ s.workers := List.mem_iff_getElem?.2 ⟨w, hw⟩
  obtain ⟨al1, al2⟩ := h.alone hw (Or.inr rfl)
  have hcnt : ∀ c i, cnt { s with workers := s.workers.set w .idle, resps := setResp s.resps t.call t.ix (.closed x) } c i + tk c i t = cnt s c i := by
    intro c i
    have := sum_set (wk c i) s.workers w (.closing t) .idle hw
    simp only [cnt]
    simp only [wk] at this ⊢
    omega
  obtain ⟨cl, a1, a2, a3, a4⟩ := h.saneW t (Or.inr hm)
  refine ⟨h.saneQ, ?_, ?_, ?_, ?_, fun c i => by have := hcnt c i; have := h.one c i; omega, ?_, ?_, ?_, h.calls⟩
  · rintro u (hu | hu)
    · rcases mem_of_set hu with hu | hu
      · cases hu
      · exact h.saneW u (Or.inl hu)
    · rcases mem_of_set hu with hu | hu
      · cases hu
      · exact h.saneW u (Or.inr hu)
  · intro u hu
    show setResp s.resps t.call t.ix (.closed x) u.call u.ix = _
    rw [setResp_ne _ _ (al1 u hu)]; exact h.queued u hu
  · intro u hu
    show setResp s.resps t.call t.ix (.closed x) u.call u.ix = _
    rw [setResp_ne _ _ (al2 u (Or.inl hu))]
    rcases mem_of_set hu with he | hu
    · cases he
    · exact h.checking u hu
  · intro u hu
    show (_ ∧ setResp s.resps t.call t.ix (.closed x) u.call u.ix = _) ∨ ∃ f, _ ∧ setResp s.resps t.call t.ix (.closed x) u.call u.ix = _
    rw [setResp_ne _ _ (al2 u (Or.inr hu))]
    rcases mem_of_set hu with he | hu
    · cases he
    · exact h.closing u hu
  · intro c cl i hc hi
    show _ ∨ ∃ y, setResp s.resps t.call t.ix (.closed x) c i = _
    by_cases he : c = t.call ∧ i = t.ix
    · obtain ⟨rfl, rfl⟩ := he
      exact Or.inr ⟨x, setResp_self _ _ _ _⟩
    · rw [setResp_ne _ _ he]
      rcases h.there c cl i hc hi with h1 | h1
      · left
        have := hcnt c i
        have h0 : tk c i t = 0 := by unfold tk; rw [if_neg (fun h => he ⟨h.1.symm, h.2.symm⟩)]
        omega
      · exact Or.inr h1
  · intro c i hne
    change setResp s.resps t.call t.ix (.closed x) c i ≠ _ at hne
    show ∃ (cl : Call B) (v : Vote B), _ ∧ _ ∧ _ ∧ RespOk cl.expoly v (setResp s.resps t.call t.ix (.closed x) c i)
    by_cases he : c = t.call ∧ i = t.ix
    · obtain ⟨rfl, rfl⟩ := he
      rw [setResp_self]
      refine ⟨cl, t.vote, a1, a2, a3, ?_⟩
      rw [← a4]
      rcases h.closing t hm with ⟨b1, b2⟩ | ⟨f, b1, b2⟩
      · rcases hx with ⟨-, rfl⟩ | ⟨f, hf, -⟩
        · exact b1
        · rw [b2] at hf; cases hf
      · rcases hx with ⟨hp, -⟩ | ⟨g, hg, rfl⟩
        · rw [b2] at hp; cases hp
        · rw [b2] at hg; injection hg with hg; subst hg; exact b1
    · rw [setResp_ne _ _ he] at hne ⊢
      exact h.none c i hne
  · intro c i hc
    have := hcnt c i
    have := h.fresh c i hc
    omega


theorem inv_init (n : Node B) (cpus : Nat) : Inv (init n cpus) := by
  have hz : ∀ c i, cnt (init n cpus) c i = 0 := by
    intro c i
    simp only [cnt, init]
    show 0 + sumBy (wk c i) (List.replicate cpus .idle) = 0
    induction cpus with
    | zero => rfl
    | succ k ih => rw [List.replicate_succ, sumBy_cons]; show 0 + (0 + _) = 0; omega
  refine ⟨?_, ?_, ?_, ?_, ?_, fun c i => by rw [hz]; omega, ?_, ?_, fun c i _ => hz c i, ?_⟩
  · intro t ht; cases ht
  · rintro t (ht | ht) <;> cases (List.mem_replicate.1 ht).2
  · intro t ht; cases ht
  · intro t ht; cases (List.mem_replicate.1 ht).2
  · intro t ht; cases (List.mem_replicate.1 ht).2
  · intro c cl i hc; cases hc
  · intro c i hc; exact absurd rfl hc
  · intro c cl hc; cases hc

/-- A check that makes the process crash. -/
def Crash (s : State B) : Prop :=
  ∃ t f, Worker.checking t ∈ s.workers ∧ Node.checkVote t.expoly t.vote = .error f ∧ ∀ k m, f ≠ .err k m

theorem Inv.step {s s' : State B} {e : Ev B} (h : Inv s) (hs : step s e = some s') : (Inv s' ∧ s'.crashed = false) ∨ (s'.crashed = true ∧ Crash s) := by
  have hcr : s.crashed = false := by
    by_contra hne
    unfold VotePool.step at hs
    rw [if_pos (by simpa using hne)] at hs
    cases hs
  cases e with
  | recv c => exact Or.inl (h.recv hcr hs)
  | take w => exact Or.inl (h.take hcr hs)
  | receiveShare name sh =>
    unfold VotePool.step at hs
    rw [if_neg (by rw [hcr]; decide)] at hs
    injection hs with hs; subst hs
    exact Or.inl ⟨⟨h.saneQ, h.saneW, h.queued, h.checking, h.closing, h.one, h.there, h.none, h.fresh, h.calls⟩, hcr⟩
  | call req =>
    unfold VotePool.step at hs
    rw [if_neg (by rw [hcr]; decide)] at hs
    injection hs with hs; subst hs
    exact Or.inl ⟨h.call req, hcr⟩
  | send c =>
    unfold VotePool.step at hs
    rw [if_neg (by rw [hcr]; decide)] at hs
    dsimp only at hs
    split at hs
    next cl hc =>
      split at hs
      next i hpc =>
        split at hs
        next v hv =>
          split at hs
          · injection hs with hs; subst hs
            exact Or.inl ⟨h.send hc hpc hv, hcr⟩
          · cases hs
        next => cases hs
      next => cases hs
    next => cases hs
  | check w =>
    unfold VotePool.step at hs
    rw [if_neg (by rw [hcr]; decide)] at hs
    dsimp only at hs
    split at hs
    next t hw =>
      have hm : Worker.checking t ∈ s.workers := List.mem_iff_getElem?.2 ⟨w, hw⟩
      have hp := h.checking t hm
      split at hs
      next hok =>
        injection hs with hs; subst hs
        have := h.checked hw .pending (Or.inl ⟨hok, rfl⟩)
        have he : setResp s.resps t.call t.ix .pending = s.resps := by
          funext c i
          by_cases he : c = t.call ∧ i = t.ix
          · obtain ⟨rfl, rfl⟩ := he; rw [setResp_self, hp]
          · rw [setResp_ne _ _ he]
        rw [he] at this
        exact Or.inl ⟨this, hcr⟩
      next k m herr =>
        rw [hp] at hs
        injection hs with hs; subst hs
        exact Or.inl ⟨h.checked hw _ (Or.inr ⟨_, herr, rfl⟩), hcr⟩
      next f hf herr =>
        injection hs with hs; subst hs
        exact Or.inr ⟨rfl, t, f, hm, herr, fun k m e => hf k m e⟩
    next => cases hs
  | close w =>
    unfold VotePool.step at hs
    rw [if_neg (by rw [hcr]; decide)] at hs
    dsimp only at hs
    split at hs
    next t hw =>
      have hm : Worker.closing t ∈ s.workers := List.mem_iff_getElem?.2 ⟨w, hw⟩
      rcases h.closing t hm with ⟨-, hp⟩ | ⟨f, -, hp⟩
      · rw [hp] at hs
        injection hs with hs; subst hs
        exact Or.inl ⟨h.closed hw _ (Or.inl ⟨hp, rfl⟩), hcr⟩
      · rw [hp] at hs
        injection hs with hs; subst hs
        exact Or.inl ⟨h.closed hw _ (Or.inr ⟨f, hp, rfl⟩), hcr⟩
    next => cases hs

theorem step_alive {s s' : State B} {e : Ev B} (hs : step s e = some s') : s.crashed = false := by
  by_contra hne
  unfold VotePool.step at hs
  rw [if_pos (by simpa using hne)] at hs
  cases hs

theorem run_nil {s s' : State B} (hr : run s [] = some s') : s = s' := by injection hr

theorem run_cons {s s' : State B} {e : Ev B} {es : List (Ev B)} (hr : run s (e :: es) = some s') : ∃ s1, step s e = some s1 ∧ run s1 es = some s' := by
  unfold run at hr
  cases hs : step s e with
  | none => rw [hs] at hr; cases hr
  | some s1 => rw [hs] at hr; exact ⟨s1, rfl, hr⟩

theorem step_calls {s s' : State B} {e : Ev B} (hs : step s e = some s') :
    s'.calls = s.calls ∨ (∃ req, e = .call req ∧ s'.crashed = false ∧ s'.calls = s.calls ++ [begin s.node req]) ∨
    ∃ (c : Nat) (cl : Call B) (cl' : Call B), e.internal = true ∧ s'.crashed = false ∧ s.calls[c]? = some cl ∧ s'.calls = s.calls.set c cl' ∧ cl'.req = cl.req ∧ cl'.start = cl.start ∧ cl'.expoly = cl.expoly ∧
      ∀ r, cl.pc ≠ .done r := by
  have hcr := step_alive hs
  unfold step at hs
  rw [if_neg (by rw [hcr]; decide)] at hs
  cases e with
  | receiveShare name sh => injection hs with hs; subst hs; exact Or.inl rfl
  | call req => injection hs with hs; subst hs; exact Or.inr (Or.inl ⟨req, rfl, hcr, rfl⟩)
  | send c =>
    dsimp only at hs
    repeat' split at hs
    all_goals first
      | cases hs; done
      | (injection hs with hs; subst hs
         have hcl := ‹s.calls[c]? = some _›
         exact Or.inr (Or.inr ⟨c, _, _, rfl, hcr, hcl, rfl, rfl, rfl, rfl, fun r hr => by simp_all⟩))
  | recv c =>
    dsimp only at hs
    repeat' split at hs
    all_goals first
      | cases hs; done
      | (injection hs with hs; subst hs
         have hcl := ‹s.calls[c]? = some _›
         exact Or.inr (Or.inr ⟨c, _, _, rfl, hcr, hcl, rfl, rfl, rfl, rfl, fun r hr => by simp_all⟩))
  | take w =>
    dsimp only at hs
    repeat' split at hs
    all_goals first
      | cases hs; done
      | (injection hs with hs; subst hs; exact Or.inl rfl)
  | check w =>
    dsimp only at hs
    repeat' split at hs
    all_goals first
      | cases hs; done
      | (injection hs with hs; subst hs; exact Or.inl rfl)
  | close w =>
    dsimp only at hs
    repeat' split at hs
    all_goals first
      | cases hs; done
      | (injection hs with hs; subst hs; exact Or.inl rfl)

theorem step_node {s s' : State B} {e : Ev B} (hs : step s e = some s') : s'.node = nodeAfter s.node [e] := by
  have hcr := step_alive hs
  unfold step at hs
  rw [if_neg (by rw [hcr]; decide)] at hs
  cases e
  all_goals
    dsimp only at hs
    repeat' split at hs
    all_goals first
      | cases hs; done
      | (injection hs with hs; subst hs; rfl)

theorem nodeAfter_cons (n : Node B) (e : Ev B) (es : List (Ev B)) : nodeAfter n (e :: es) = nodeAfter (nodeAfter n [e]) es := by cases e <;> rfl

theorem run_node {s s' : State B} {es : List (Ev B)} (hr : run s es = some s') : s'.node = nodeAfter s.node es := by
  induction es generalizing s with
  | nil => rw [run_nil hr]; rfl
  | cons e es ih =>
    obtain ⟨s1, h1, h2⟩ := run_cons hr
    rw [ih h2, nodeAfter_cons, step_node h1]

/-- While alive the invariant holds; the calls are right also after a crash. -/
theorem run_inv {s s' : State B} {es : List (Ev B)} (h : Inv s) (hr : run s es = some s') :
    (s'.crashed = false → Inv s') ∧ ∀ (c : Nat) (cl : Call B), s'.calls[c]? = some cl → CallOk cl := by
  induction es generalizing s with
  | nil => rw [← run_nil hr]; exact ⟨fun _ => h, h.calls⟩
  | cons e es ih =>
    obtain ⟨s1, h1, h2⟩ := run_cons hr
    rcases h.step h1 with ⟨hi, -⟩ | ⟨hc, t, f, ht, hf, hne⟩
    · exact ih hi h2
    · have hcalls : s1.calls = s.calls := by
        rcases step_calls h1 with h3 | ⟨req, -, h3, -⟩ | ⟨c, cl, cl', -, h3, -⟩
        · exact h3
        · rw [hc] at h3; cases h3
        · rw [hc] at h3; cases h3
      cases es with
      | nil =>
        rw [← run_nil h2]
        exact ⟨fun hx => (by rw [hc] at hx; cases hx), fun c cl hcl => h.calls c cl (by rw [← hcalls]; exact hcl)⟩
      | cons e' es' =>
        obtain ⟨s2, h3, -⟩ := run_cons h2
        have := step_alive h3; rw [hc] at this; cases this

theorem callsIn_cons (e : Ev B) (es : List (Ev B)) : callsIn (e :: es) = callsIn [e] + callsIn es := by cases e <;> simp [callsIn, Nat.add_comm]

theorem step_length {s s' : State B} {e : Ev B} (hs : step s e = some s') : s'.calls.length = s.calls.length + callsIn [e] := by
  have hcr := step_alive hs
  unfold step at hs
  rw [if_neg (by rw [hcr]; decide)] at hs
  cases e
  all_goals
    dsimp only at hs
    repeat' split at hs
    all_goals first
      | cases hs; done
      | (injection hs with hs; subst hs; simp [callsIn])

theorem run_hist {s s' : State B} {es : List (Ev B)} (hr : run s es = some s') {c : Nat} {cl : Call B} (hc : s'.calls[c]? = some cl) :
    (∃ cl0, s.calls[c]? = some cl0 ∧ cl.req = cl0.req ∧ cl.start = cl0.start) ∨
    ∃ pre post, es = pre ++ .call cl.req :: post ∧ s.calls.length + callsIn pre = c ∧ cl.start = nodeAfter s.node pre := by
  induction es generalizing s with
  | nil => rw [← run_nil hr] at hc; exact Or.inl ⟨cl, hc, rfl, rfl⟩
  | cons e es ih =>
    obtain ⟨s1, h1, h2⟩ := run_cons hr
    rcases ih h2 with ⟨cl1, a1, a2, a3⟩ | ⟨pre, post, b1, b2, b3⟩
    · rcases step_calls h1 with h3 | ⟨req, rfl, -, h3⟩ | ⟨c', x, x', -, -, h3, h4, h5, h6, -⟩
      · rw [h3] at a1; exact Or.inl ⟨cl1, a1, a2, a3⟩
      · rw [h3, List.getElem?_append] at a1
        split at a1
        · exact Or.inl ⟨cl1, a1, a2, a3⟩
        · next hlt =>
          rw [List.getElem?_singleton] at a1
          split at a1
          · next h0 =>
            injection a1 with a1; subst a1
            refine Or.inr ⟨[], es, ?_, ?_, ?_⟩
            · rw [a2, (begin_ok _ _).2.2.1]; rfl
            · simp only [callsIn]; omega
            · rw [a3, (begin_ok _ _).2.2.2]; rfl
          · cases a1
      · rw [h4] at a1
        by_cases he : c' = c
        · subst he
          rw [List.getElem?_set_self (List.getElem?_eq_some_iff.1 h3).1] at a1
          injection a1 with a1; subst a1
          exact Or.inl ⟨x, h3, a2.trans h5, a3.trans h6⟩
        · rw [List.getElem?_set_ne he] at a1
          exact Or.inl ⟨cl1, a1, a2, a3⟩
    · refine Or.inr ⟨e :: pre, post, by rw [b1]; rfl, ?_, ?_⟩
      · rw [callsIn_cons, ← b2, step_length h1]; omega
      · rw [b3, nodeAfter_cons, step_node h1]


/-- The calls and workers can move on as long as a call has not returned. -/
theorem Inv.progress {s : State B} (h : Inv s) (hcr : s.crashed = false) (hw : s.workers ≠ []) {c : Nat} {cl : Call B} (hc : s.calls[c]? = some cl) (hnd : ∀ r, cl.pc ≠ .done r) :
    ∃ e s', e.internal = true ∧ VotePool.step s e = some s' := by
  have hn : ¬ s.crashed = true := by rw [hcr]; decide
  by_cases hck : ∃ (w : Nat) (t : Task B), s.workers[w]? = some (.checking t)
  · obtain ⟨w, t, hw'⟩ := hck
    have hp := h.checking t (List.mem_iff_getElem?.2 ⟨w, hw'⟩)
    refine ⟨.check w, ?_⟩
    unfold VotePool.step
    rw [if_neg hn]
    simp only [hw', hp]
    split
    · exact ⟨_, rfl, rfl⟩
    · exact ⟨_, rfl, rfl⟩
    · exact ⟨_, rfl, rfl⟩
  by_cases hcl : ∃ (w : Nat) (t : Task B), s.workers[w]? = some (.closing t)
  · obtain ⟨w, t, hw'⟩ := hcl
    refine ⟨.close w, ?_⟩
    unfold VotePool.step
    rw [if_neg hn]
    simp only [hw']
    split
    · exact ⟨_, rfl, rfl⟩
    · exact ⟨_, rfl, rfl⟩
    · exact ⟨_, rfl, rfl⟩
  have hidle : ∀ (w : Nat) (x : Worker B), s.workers[w]? = some x → x = .idle := by
    intro w x hx
    cases x with
    | idle => rfl
    | checking t => exact absurd ⟨w, t, hx⟩ hck
    | closing t => exact absurd ⟨w, t, hx⟩ hcl
  have hpos : 0 < s.workers.length := List.length_pos_iff.2 hw
  have h0 : s.workers[0]? = some .idle := by
    have : s.workers[0]? = some s.workers[0] := List.getElem?_eq_getElem hpos
    rw [this, hidle 0 _ this]
  cases hq : s.queue with
  | cons t q =>
    refine ⟨.take 0, ?_⟩
    unfold VotePool.step
    rw [if_neg hn]
    simp only [h0, hq]
    exact ⟨_, rfl, rfl⟩
  | nil =>
    have hz : ∀ c i, cnt s c i = 0 := by
      intro c i
      unfold cnt
      rw [hq]
      have : ∀ l : List (Worker B), (∀ x ∈ l, x = .idle) → sumBy (wk c i) l = 0 := by
        intro l hl
        induction l with
        | nil => rfl
        | cons x l ih =>
          rw [sumBy_cons, ih (fun y hy => hl y (List.mem_cons_of_mem _ hy)), hl x List.mem_cons_self]; rfl
      rw [this _ (fun x hx => by obtain ⟨w, hw⟩ := List.mem_iff_getElem?.1 hx; exact hidle w x hw)]; rfl
    have hok := h.calls c cl hc
    unfold CallOk at hok
    cases hpc : cl.pc with
    | done r => exact absurd hpc (hnd r)
    | sending i =>
      rw [hpc] at hok
      obtain ⟨-, -, hi⟩ := hok
      refine ⟨.send c, ?_⟩
      unfold VotePool.step
      rw [if_neg hn]
      simp only [hc, hpc, List.getElem?_eq_getElem hi, hq, List.length_nil, hpos, if_true]
      exact ⟨_, rfl, rfl⟩
    | waiting i =>
      rw [hpc] at hok
      obtain ⟨-, hs, hi, -⟩ := hok
      refine ⟨.recv c, ?_⟩
      unfold VotePool.step
      rw [if_neg hn]
      rcases h.there c cl i hc (by omega) with h1 | ⟨x, hx⟩
      · rw [hz] at h1; cases h1
      · simp only [hc, hpc, hx]
        cases x with
        | none => exact ⟨_, rfl, rfl⟩
        | some f => exact ⟨_, rfl, rfl⟩

/-- Steps a call still has to make, and its votes' tasks. -/
def Call.work (cl : Call B) : Nat :=
  match cl.pc with
  | .sending i => 5 * (cl.req.votes.length - i) + cl.req.votes.length + 1
  | .waiting i => cl.req.votes.length - i + 1
  | .done _ => 0

def Worker.work : Worker B → Nat
  | .idle => 0
  | .checking _ => 2
  | .closing _ => 1

/-- An upper bound of the steps the calls and workers can make. -/
def work (s : State B) : Nat := sumBy Call.work s.calls + 3 * s.queue.length + sumBy Worker.work s.workers

theorem step_work {s s' : State B} {e : Ev B} (hi : e.internal = true) (hs : step s e = some s') : work s' < work s := by
  have hcr := step_alive hs
  unfold step at hs
  rw [if_neg (by rw [hcr]; decide)] at hs
  cases e with
  | receiveShare name sh => cases hi
  | call req => cases hi
  | send c =>
    dsimp only at hs
    split at hs
    next cl hc =>
      split at hs
      next i hpc =>
        split at hs
        next v hv =>
          split at hs
          next hroom =>
            injection hs with hs; subst hs
            have hlt := (List.getElem?_eq_some_iff.1 hv).1
            have := sum_set Call.work s.calls c cl { cl with sent := i + 1, pc := if i + 1 < cl.req.votes.length then .sending (i + 1) else .waiting 0 } hc
            simp only [work, List.length_append, List.length_singleton]
            have h1 : Call.work cl = 5 * (cl.req.votes.length - i) + cl.req.votes.length + 1 := by unfold Call.work; rw [hpc]
            have h2 : Call.work { cl with sent := i + 1, pc := if i + 1 < cl.req.votes.length then .sending (i + 1) else .waiting 0 } + 5 ≤ Call.work cl := by
              rw [h1]; unfold Call.work; dsimp only
              by_cases hl : i + 1 < cl.req.votes.length
              · rw [if_pos hl]; dsimp only; omega
              · rw [if_neg hl]; dsimp only; omega
            omega
          next => cases hs
        next => cases hs
      next => cases hs
    next => cases hs
  | recv c =>
    dsimp only at hs
    split at hs
    next cl hc =>
      split at hs
      next i hpc =>
        have h1 : Call.work cl = cl.req.votes.length - i + 1 := by unfold Call.work; rw [hpc]
        split at hs
        next => cases hs
        next f hf =>
          injection hs with hs; subst hs
          have := sum_set Call.work s.calls c cl { cl with pc := .done (.error f) } hc
          have h2 : Call.work { cl with pc := .done (.error f) } = 0 := rfl
          simp only [work]; omega
        next f hf =>
          injection hs with hs; subst hs
          have := sum_set Call.work s.calls c cl { cl with pc := .done (.error f) } hc
          have h2 : Call.work { cl with pc := .done (.error f) } = 0 := rfl
          simp only [work]; omega
        next hf =>
          injection hs with hs; subst hs
          have := sum_set Call.work s.calls c cl { cl with pc := if i + 1 < cl.req.votes.length then .waiting (i + 1) else .done (final cl.req cl.expoly) } hc
          have h2 : Call.work { cl with pc := if i + 1 < cl.req.votes.length then .waiting (i + 1) else .done (final cl.req cl.expoly) } < Call.work cl := by
            rw [h1]; unfold Call.work; dsimp only
            by_cases hl : i + 1 < cl.req.votes.length
            · rw [if_pos hl]; dsimp only; omega
            · rw [if_neg hl]; dsimp only; omega
          simp only [work]; omega
      next => cases hs
    next => cases hs
  | take w =>
    dsimp only at hs
    split at hs
    next hw =>
      split at hs
      next t q hq =>
        injection hs with hs; subst hs
        have := sum_set Worker.work s.workers w .idle (.checking t) hw
        have h1 : Worker.work (.idle : Worker B) = 0 := rfl
        have h2 : Worker.work (.checking t) = 2 := rfl
        simp only [work, hq, List.length_cons]; omega
      next => cases hs
    next => cases hs
  | check w =>
    dsimp only at hs
    split at hs
    next t hw =>
      have a1 := sum_set Worker.work s.workers w (.checking t) .idle hw
      have a2 := sum_set Worker.work s.workers w (.checking t) (.closing t) hw
      have h0 : Worker.work (.idle : Worker B) = 0 := rfl
      have h1 : Worker.work (.closing t) = 1 := rfl
      have h2 : Worker.work (.checking t) = 2 := rfl
      repeat' split at hs
      all_goals first
        | cases hs; done
        | (injection hs with hs; subst hs; simp only [work]; omega)
    next => cases hs
  | close w =>
    dsimp only at hs
    split at hs
    next t hw =>
      have a1 := sum_set Worker.work s.workers w (.closing t) .idle hw
      have h0 : Worker.work (.idle : Worker B) = 0 := rfl
      have h1 : Worker.work (.closing t) = 1 := rfl
      repeat' split at hs
      all_goals first
        | cases hs; done
        | (injection hs with hs; subst hs; simp only [work]; omega)
    next => cases hs

theorem run_work {s s' : State B} {es : List (Ev B)} (hi : ∀ e ∈ es, e.internal = true) (hr : run s es = some s') : es.length + work s' ≤ work s := by
  induction es generalizing s with
  | nil => rw [← run_nil hr]; simp
  | cons e es ih =>
    obtain ⟨s1, h1, h2⟩ := run_cons hr
    have := step_work (hi e List.mem_cons_self) h1
    have := ih (fun x hx => hi x (List.mem_cons_of_mem _ hx)) h2
    simp only [List.length_cons]; omega

theorem step_workers {s s' : State B} {e : Ev B} (hs : step s e = some s') : s'.workers.length = s.workers.length := by
  have hcr := step_alive hs
  unfold step at hs
  rw [if_neg (by rw [hcr]; decide)] at hs
  cases e
  all_goals
    dsimp only at hs
    repeat' split at hs
    all_goals first
      | cases hs; done
      | (injection hs with hs; subst hs; simp)

theorem run_workers {s s' : State B} {es : List (Ev B)} (hr : run s es = some s') : s'.workers.length = s.workers.length := by
  induction es generalizing s with
  | nil => rw [← run_nil hr]
  | cons e es ih =>
    obtain ⟨s1, h1, h2⟩ := run_cons hr
    rw [ih h2, step_workers h1]

theorem run_append {s s1 s2 : State B} {es fs : List (Ev B)} (h1 : run s es = some s1) (h2 : run s1 fs = some s2) : run s (es ++ fs) = some s2 := by
  induction es generalizing s with
  | nil => rw [run_nil h1]; exact h2
  | cons e es ih =>
    obtain ⟨s', a1, a2⟩ := run_cons h1
    show (step s e).bind _ = _
    rw [a1]
    exact ih a2


theorem checkVote_proper {e : ExponentPoly B} (he : e.coefs ≠ []) (v : Vote B) {f : Fail} (h : Node.checkVote e v = .error f) : ∃ k m, f = .err k m := by
  obtain ⟨a, l, hl⟩ := List.exists_cons_of_ne_nil he
  unfold Node.checkVote at h
  have : ∃ g, e.getPublicShare (u64 v.index) = .ok g := by
    unfold ExponentPoly.getPublicShare
    split
    · exact ⟨a, by rw [hl]; rfl⟩
    · unfold ExponentPoly.compute; rw [hl]; exact ⟨_, rfl⟩
  obtain ⟨g, hg⟩ := this
  rw [hg] at h
  change (if isValidSignature v.id v.sig g then Except.ok () else Except.error (Fail.err .unknown "invalid signature")) = .error f at h
  split at h
  · cases h
  · injection h with h; exact ⟨_, _, h.symm⟩

/-- The node's and the running calls' polynomials have coefficients. -/
def Proper (s : State B) : Prop :=
  (∀ name sh, GoMap.lookup s.node.shares name = some sh → sh.expoly.coefs ≠ []) ∧
  ∀ (c : Nat) (cl : Call B), s.calls[c]? = some cl → cl.expoly.coefs ≠ [] ∨ (cl.sent = 0 ∧ ∃ r, cl.pc = .done r)

theorem begin_proper {n : Node B} (h : ∀ name sh, GoMap.lookup n.shares name = some sh → sh.expoly.coefs ≠ []) (req : Req B) :
    (begin n req).expoly.coefs ≠ [] ∨ ((begin n req).sent = 0 ∧ ∃ r, (begin n req).pc = .done r) := by
  cases req with
  | validate name v =>
    simp only [begin]
    cases hl : GoMap.lookup n.shares name with
    | none => exact Or.inr ⟨rfl, _, rfl⟩
    | some sh => exact Or.inl (h _ _ hl)
  | reconstruct name votes =>
    simp only [begin]
    split
    · exact Or.inr ⟨rfl, _, rfl⟩
    · cases hl : GoMap.lookup n.shares name with
      | none => exact Or.inr ⟨rfl, _, rfl⟩
      | some sh => exact Or.inl (h _ _ hl)

theorem Proper.step {s s' : State B} {e : Ev B} (h : Proper s) (he : ∀ name sh, e = .receiveShare name sh → sh.expoly.coefs ≠ []) (hs : step s e = some s') : Proper s' := by
  constructor
  · rw [step_node hs]
    cases e with
    | receiveShare name sh =>
      intro name' sh' hl
      change GoMap.lookup (GoMap.insert s.node.shares name sh) name' = _ at hl
      by_cases hn : name' = name
      · subst hn
        rw [GoMap.lookup_insert_self] at hl; injection hl with hl; subst hl
        exact he _ _ rfl
      · rw [GoMap.lookup_insert_ne _ _ hn] at hl
        exact h.1 _ _ hl
    | _ => exact h.1
  · intro c cl hc
    rcases step_calls hs with h3 | ⟨req, rfl, -, h3⟩ | ⟨c', x, x', -, -, h3, h4, h5, h6, h7, h8⟩
    · rw [h3] at hc; exact h.2 c cl hc
    · rw [h3, List.getElem?_append] at hc
      split at hc
      · exact h.2 c cl hc
      · rw [List.getElem?_singleton] at hc
        split at hc
        · injection hc with hc; subst hc; exact begin_proper h.1 req
        · cases hc
    · rw [h4] at hc
      by_cases hcc : c' = c
      · subst hcc
        rw [List.getElem?_set_self (List.getElem?_eq_some_iff.1 h3).1] at hc
        injection hc with hc; subst hc
        left
        rw [h7]
        rcases h.2 _ x h3 with hx | ⟨-, r, hx⟩
        · exact hx
        · exact absurd hx (h8 r)
      · rw [List.getElem?_set_ne hcc] at hc
        exact h.2 c cl hc

theorem Proper.no_crash {s : State B} (h : Proper s) (hi : Inv s) : ¬ Crash s := by
  rintro ⟨t, f, ht, hf, hne⟩
  obtain ⟨cl, a1, a2, a3, a4⟩ := hi.saneW t (Or.inl ht)
  rcases h.2 _ _ a1 with hp | ⟨h0, -⟩
  · rw [a4] at hf
    obtain ⟨k, m, hk⟩ := checkVote_proper hp _ hf
    exact hne k m hk
  · omega

theorem run_proper {s s' : State B} {es : List (Ev B)} (h : Proper s) (hi : Inv s) (hcr : s.crashed = false) (he : ∀ name sh, .receiveShare name sh ∈ es → sh.expoly.coefs ≠ [])
    (hr : run s es = some s') : Proper s' ∧ Inv s' ∧ s'.crashed = false := by
  induction es generalizing s with
  | nil => rw [← run_nil hr]; exact ⟨h, hi, hcr⟩
  | cons e es ih =>
    obtain ⟨s1, h1, h2⟩ := run_cons hr
    have hp := h.step (fun name sh hx => he name sh (by rw [hx]; exact List.mem_cons_self)) h1
    rcases hi.step h1 with ⟨h3, h4⟩ | ⟨-, h3⟩
    · exact ih hp h3 h4 (fun name sh hm => he name sh (List.mem_cons_of_mem _ hm)) h2
    · exact absurd h3 (h.no_crash hi)


theorem run_calls_length {s s' : State B} {es : List (Ev B)} (hr : run s es = some s') : s'.calls.length = s.calls.length + callsIn es := by
  induction es generalizing s with
  | nil => rw [← run_nil hr]; rfl
  | cons e es ih =>
    obtain ⟨s1, h1, h2⟩ := run_cons hr
    rw [ih h2, step_length h1, callsIn_cons e es]; omega

theorem callsIn_append (es fs : List (Ev B)) : callsIn (es ++ fs) = callsIn es + callsIn fs := by
  induction es with
  | nil => simp [callsIn]
  | cons e es ih => rw [List.cons_append, callsIn_cons, ih, callsIn_cons e es]; omega

end Resmix.Tibe.VotePool
