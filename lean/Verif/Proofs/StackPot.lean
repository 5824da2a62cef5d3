import Verif.Proofs.StackC
import Mathlib.Algebra.BigOperators.Group.Finset.Basic
import Mathlib.Algebra.Order.BigOperators.Group.Finset
set_option autoImplicit false
/-
The steps of workers and connections are paid for by the calls.
-/
namespace Resmix.Stack
open Resmix.Sender
open Resmix.Rrpc.DirectSystem (Good work)
variable {ζ μ : Type} {c : Config ζ μ} {s s' : State ζ μ} {e : Event ζ μ}

/-- The steps a worker has left with its call. -/
def rank : Stage → Nat
  | .idle => 0
  | .made _ _ => 3
  | .queued _ _ => 2
  | .waiting _ _ => 1

/-- The steps of workers and connections. -/
def Busy : Event ζ μ → Bool
  | .panic _ _ => true
  | .call _ _ _ => true
  | .enqueue _ _ => true
  | .await _ _ => true
  | .ret _ _ => true
  | .conn _ _ (.visit _ _) => false
  | .conn _ _ _ => true
  | .serve _ _ _ => true
  | _ => false

def isCallE : Event ζ μ → Bool
  | .call _ _ _ => true
  | _ => false

def connWork (s : State ζ μ) (p : Str × Str) : Nat := work (s.conns p.1 p.2)
def rankAt (s : State ζ μ) (p : Str × Nat) : Nat := rank (s.worker p.1 p.2).stage

/-- Workers and connections outside of `F` and `G` have nothing to do, and those inside `n` steps. -/
structure Left (s : State ζ μ) (F : Finset (Str × Str)) (G : Finset (Str × Nat)) (n : Nat) : Prop where
  conns : ∀ p, p ∉ F → connWork s p = 0
  workers : ∀ p, p ∉ G → rankAt s p = 0
  sum : ∑ p ∈ F, connWork s p + ∑ p ∈ G, rankAt s p = n

theorem sum_at {α : Type} [DecidableEq α] {f f' : α → Nat} {F : Finset α} (p : α) (h0 : ∀ q, q ∉ F → f q = 0) (h : ∀ q, q ≠ p → f' q = f q) :
    (∀ q, q ∉ insert p F → f' q = 0) ∧ ∑ q ∈ insert p F, f' q + f p = ∑ q ∈ F, f q + f' p := by
  refine ⟨fun q hq => ?_, ?_⟩
  · rw [Finset.mem_insert, not_or] at hq
    rw [h q hq.1]; exact h0 q hq.2
  · have h1 : ∑ q ∈ insert p F, f q = ∑ q ∈ F, f q := Finset.sum_insert_of_eq_zero_if_notMem (h0 p)
    have hp : p ∈ insert p F := Finset.mem_insert_self _ _
    have h2 := Finset.add_sum_erase _ f hp
    have h3 := Finset.add_sum_erase _ f' hp
    have h4 : ∑ q ∈ (insert p F).erase p, f' q = ∑ q ∈ (insert p F).erase p, f q := Finset.sum_congr rfl fun q hq => h q (Finset.ne_of_mem_erase hq)
    omega

theorem Left.same {F : Finset (Str × Str)} {G : Finset (Str × Nat)} {n : Nat} (l : Left s F G n) (h1 : ∀ h h', s'.conns h h' = s.conns h h')
    (h2 : ∀ h i, (s'.worker h i).stage = (s.worker h i).stage) : Left s' F G n := by
  have e1 : connWork s' = connWork s := by funext p; simp only [connWork, h1]
  have e2 : rankAt s' = rankAt s := by funext p; simp only [rankAt, h2]
  exact ⟨by rw [e1]; exact l.conns, by rw [e2]; exact l.workers, by rw [e1, e2]; exact l.sum⟩

theorem Left.conn_ {F : Finset (Str × Str)} {G : Finset (Str × Nat)} {n : Nat} (l : Left s F G n) {h h' : Str} {t : Rrpc.DirectSystem.State ζ μ}
    (h1 : s'.conns = upd2 s.conns h h' t) (h2 : s'.worker = s.worker) : ∃ F' n', Left s' F' G n' ∧ n' + work (s.conns h h') = n + work t := by
  have e2 : rankAt s' = rankAt s := by funext p; simp only [rankAt, h2]
  obtain ⟨g1, g2⟩ := sum_at (f' := connWork s') (h, h') l.conns (fun q hq => by
    simp only [connWork, h1]; rw [upd2_ne]; rintro ⟨a, b⟩; exact hq (Prod.ext a b))
  have e3 : connWork s' (h, h') = work t := by simp only [connWork, h1, upd2_same]
  refine ⟨_, _, ⟨g1, by rw [e2]; exact l.workers, rfl⟩, ?_⟩
  have := l.sum
  rw [e2]
  rw [e3] at g2
  have e4 : connWork s (h, h') = work (s.conns h h') := rfl
  omega

theorem Left.worker_ {F : Finset (Str × Str)} {G : Finset (Str × Nat)} {n : Nat} (l : Left s F G n) {h : Str} {i : Nat} {w : Worker}
    (h1 : s'.conns = s.conns) (h2 : s'.worker = upd2 s.worker h i w) : ∃ G' n', Left s' F G' n' ∧ n' + rank (s.worker h i).stage = n + rank w.stage := by
  have e2 : connWork s' = connWork s := by funext p; simp only [connWork, h1]
  obtain ⟨g1, g2⟩ := sum_at (f' := rankAt s') (h, i) l.workers (fun q hq => by
    simp only [rankAt, h2]; rw [upd2_ne]; rintro ⟨a, b⟩; exact hq (Prod.ext a b))
  have e3 : rankAt s' (h, i) = rank w.stage := by simp only [rankAt, h2, upd2_same]
  refine ⟨_, _, ⟨by rw [e2]; exact l.conns, g1, rfl⟩, ?_⟩
  have := l.sum
  rw [e2]
  rw [e3] at g2
  have e4 : rankAt s (h, i) = rank (s.worker h i).stage := rfl
  omega

theorem Left.both {F : Finset (Str × Str)} {G : Finset (Str × Nat)} {n : Nat} (l : Left s F G n) {h h' : Str} {i : Nat} {w : Worker} {t : Rrpc.DirectSystem.State ζ μ}
    (h1 : s'.conns = upd2 s.conns h h' t) (h2 : s'.worker = upd2 s.worker h i w) :
    ∃ F' G' n', Left s' F' G' n' ∧ n' + work (s.conns h h') + rank (s.worker h i).stage = n + work t + rank w.stage := by
  obtain ⟨F', n1, l1, g1⟩ := l.conn_ (s' := { s with conns := upd2 s.conns h h' t }) rfl rfl
  obtain ⟨G', n2, l2, g2⟩ := l1.worker_ (s' := s') h1 h2
  refine ⟨F', G', n2, l2, ?_⟩
  dsimp only at g2
  omega

theorem left_init (c : Config ζ μ) (conn : Str → Bool) : Left (init conn : State ζ μ) ∅ ∅ 0 := ⟨fun _ _ => rfl, fun _ _ => rfl, rfl⟩

theorem left_step (hS : Serves c) (w : Wf c s) (hnp : NoPanic c s) (hp : Proper c s e) (hst : Step c s e s') {F : Finset (Str × Str)} {G : Finset (Str × Nat)} {n : Nat}
    (l : Left s F G n) : ∃ F' G' n', Left s' F' G' n' ∧ n' + (if Busy e then 1 else 0) ≤ n + (if isCallE e then 11 else 0) := by
  cases hst with
  | client ha hs => exact ⟨F, G, n, l.same (fun _ _ => rfl) (fun _ _ => rfl), le_rfl⟩
  | enter hw ho hs => exact ⟨F, G, n, l.same (fun _ _ => rfl) (fun _ _ => rfl), le_rfl⟩
  | work hb hm hs hm' hin => exact ⟨F, G, n, l.same (fun _ _ => rfl) (fun _ _ => rfl), le_rfl⟩
  | leave hb hm hs hm' hin hout => exact ⟨F, G, n, l.same (fun _ _ => rfl) (fun _ _ => rfl), le_rfl⟩
  | take hw hm ho hs hb =>
    rename_i h i r m1 out rest srv resp rqs
    obtain ⟨G', n', l', g⟩ := l.worker_ (s' := { s.setServer h srv with worker := upd2 s.worker h i ⟨rqs, false, .idle⟩ }) rfl rfl
    rw [hw] at g
    exact ⟨F, G', n', l', by simp only [rank, Busy, isCallE, Bool.false_eq_true, if_false] at g ⊢; omega⟩
  | takeBad hw hm ho hs hb => exact absurd hb (hnp _ _ _ _ _ _ _ _ _ hm ho hs)
  | panic hc hw =>
    rename_i h i
    have := (w.links h).calm i
    rw [hw] at this; cases this
  | call hc hw hs =>
    rename_i h i now rq rest d t
    obtain ⟨A, hI⟩ := (w.links h).conn rq.host
    have hr := (w.links h).todo i rq (by rw [hw]; exact List.mem_cons_self)
    have hg : Good (c.link h rq.host) (s.conns h rq.host) (.call rq.uuid now rq.method (c.enc rq.round rq.messages)) :=
      ⟨hp rq rest _ hw, by rw [hr.1]; exact hS.method h rq.host⟩
    have hwk := hI.work_step hg hs
    obtain ⟨F', G', n', l', g⟩ := l.both (s' := { s with conns := upd2 s.conns h rq.host t, worker := upd2 s.worker h i ⟨rest, d, .made rq.host (s.conns h rq.host).client.calls.length⟩ }) rfl rfl
    rw [hw] at g
    refine ⟨F', G', n', l', ?_⟩
    simp only [rank, Busy, isCallE, Rrpc.DirectSystem.Event.Own, Rrpc.DirectSystem.Event.isCall, if_true, Bool.false_eq_true, if_false] at g hwk ⊢
    omega
  | enqueue hc hw hs =>
    rename_i h h' i j todo d t
    obtain ⟨A, hI⟩ := (w.links h).conn h'
    have hwk := hI.work_step (e := .enqueue j) trivial hs
    obtain ⟨F', G', n', l', g⟩ := l.both (s' := { s with conns := upd2 s.conns h h' t, worker := upd2 s.worker h i ⟨todo, d, .queued h' j⟩ }) rfl rfl
    rw [hw] at g
    refine ⟨F', G', n', l', ?_⟩
    simp only [rank, Busy, isCallE, Rrpc.DirectSystem.Event.Own, Rrpc.DirectSystem.Event.isCall, if_true, Bool.false_eq_true, if_false] at g hwk ⊢
    omega
  | await hc hw hs =>
    rename_i h h' i j todo d t
    obtain ⟨A, hI⟩ := (w.links h).conn h'
    have hwk := hI.work_step (e := .await j) trivial hs
    obtain ⟨F', G', n', l', g⟩ := l.both (s' := { s with conns := upd2 s.conns h h' t, worker := upd2 s.worker h i ⟨todo, d, .waiting h' j⟩ }) rfl rfl
    rw [hw] at g
    refine ⟨F', G', n', l', ?_⟩
    simp only [rank, Busy, isCallE, Rrpc.DirectSystem.Event.Own, Rrpc.DirectSystem.Event.isCall, if_true, Bool.false_eq_true, if_false] at g hwk ⊢
    omega
  | ret hc hw hx hg =>
    rename_i h h' i j todo d x
    obtain ⟨G', n', l', g⟩ := l.worker_ (s' := { s with worker := upd2 s.worker h i ⟨todo, d, .idle⟩ }) rfl rfl
    rw [hw] at g
    refine ⟨F, G', n', l', ?_⟩
    simp only [rank, Busy, isCallE, if_true, Bool.false_eq_true, if_false] at g ⊢
    omega
  | conn he hc hs =>
    rename_i h h' ev t
    obtain ⟨A, hI⟩ := (w.links h).conn h'
    have hg := good_conn hp he
    have hwk := hI.work_step hg hs
    obtain ⟨F', n', l', g⟩ := l.conn_ (h := h) (h' := h') (t := t)
      (s' := { s.setServer h { s.servers h with crashed := (s.servers h).crashed || t.client.crashed } with conns := upd2 s.conns h h' t }) rfl rfl
    refine ⟨F', G, n', l', ?_⟩
    cases ev <;> simp [Inner, Busy, isCallE, Rrpc.DirectSystem.Event.Own, Rrpc.DirectSystem.Event.isCall] at he hwk g ⊢ <;> omega
  | start hq hn hv hd hs => exact ⟨F, G, n, l.same (fun _ _ => rfl) (fun _ _ => rfl), le_rfl⟩
  | startBad hc hq hn hv hd => exact ⟨F, G, n, l.same (fun _ _ => rfl) (fun _ _ => rfl), le_rfl⟩
  | serve hc hn hs =>
    rename_i h h' cache res t
    obtain ⟨A, hI⟩ := (w.links h).conn h'
    have hg : Good (c.link h h') (s.conns h h') (.serve (fun _ _ _ _ => res) cache) := fun _ _ _ _ => (w.hands h').plain h res hn
    have hwk := hI.work_step hg hs
    obtain ⟨F', n', l', g⟩ := l.conn_ (h := h) (h' := h') (t := t)
      (s' := { s with conns := upd2 s.conns h h' t, handling := upd2 s.handling h h' none }) rfl rfl
    refine ⟨F', G, n', l', ?_⟩
    simp only [Busy, isCallE, Rrpc.DirectSystem.Event.Own, Rrpc.DirectSystem.Event.isCall, if_true, Bool.false_eq_true, if_false] at g hwk ⊢
    omega
  | reject hc hq hn hv hs =>
    rename_i h h' cache j q t
    obtain ⟨A, hI⟩ := (w.links h).conn h'
    obtain ⟨x, d, o', f', -, -, -, -, h3⟩ := Rrpc.DirectSystem.accepted hI hq c.ack cache
    rw [h3] at hv; cases hv

end Resmix.Stack
