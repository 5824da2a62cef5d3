import Verif.Proofs.HideC
import Verif.Proofs.SystemC
set_option autoImplicit false
/-
Anonymity in the whole system: a run in which some hosts have other keys.
-/
namespace Resmix.System
open Resmix.Mixer (Messages MixOutput Like LikeDead LooksSame SameButWords opened)
open Resmix.Topology (Closed)

/-- Two round objects of round `r'` at host `h`. -/
def ObjRel (H : Str → Prop) (r : Nat) (c c' : Config) (h : Str) (p p' : Nat × Mixer.State) : Prop :=
  p'.1 = p.1 ∧ ((¬ (H h ∧ p.1 = r) ∧ p'.2 = p.2) ∨ (H h ∧ p.1 = r ∧
    ((p.2.crashed = false ∧ Like p.2 p'.2 ∧ Mixer.Inv (c.env h r) p.2 ∧ Mixer.Inv (c'.env h r) p'.2) ∨ LikeDead p.2 p'.2)))

structure SrvRel (H : Str → Prop) (r : Nat) (c c' : Config) (h : Str) (srv srv' : Server.State) : Prop where
  connections : srv'.connections = srv.connections
  rounds : srv'.rounds = srv.rounds
  waiting : srv'.waiting = srv.waiting
  crashed : srv'.crashed = srv.crashed
  objs : List.Forall₂ (ObjRel H r c c' h) srv.objs srv'.objs

variable {H : Str → Prop} {r : Nat} {c c' : Config} {h : Str}

theorem SrvRel.get {srv srv' : Server.State} (hr : SrvRel H r c c' h srv srv') {i : Nat} {p : Nat × Mixer.State} (hi : srv.objs[i]? = some p) :
    ∃ p', srv'.objs[i]? = some p' ∧ ObjRel H r c c' h p p' := by
  obtain ⟨hlt, rfl⟩ := List.getElem?_eq_some_iff.1 hi
  have hlt' : i < srv'.objs.length := by rw [← hr.objs.length_eq]; exact hlt
  exact ⟨_, List.getElem?_eq_getElem hlt', List.Forall₂.get hr.objs hlt hlt'⟩

theorem SrvRel.get_none {srv srv' : Server.State} (hr : SrvRel H r c c' h srv srv') {i : Nat} (hi : srv.objs[i]? = none) : srv'.objs[i]? = none := by
  rw [List.getElem?_eq_none_iff] at hi ⊢
  rw [← hr.objs.length_eq]; exact hi

theorem forall₂_set {α β : Type} {R : α → β → Prop} {l : List α} {l' : List β} (hf : List.Forall₂ R l l') {i : Nat} {a : α} {b : β} (hab : R a b) :
    List.Forall₂ R (l.set i a) (l'.set i b) := by
  induction hf generalizing i with
  | nil => exact .nil
  | cons h1 h2 ih =>
    cases i with
    | zero => exact .cons hab h2
    | succ i => exact .cons h1 ih

/-- The condition on the round object of round `r`. -/
def Cond (H : Str → Prop) (r : Nat) (c c' : Config) (h : Str) (srv : Server.State) : Prop :=
  H h → ∀ (i : Nat) m, srv.objs[i]? = some (r, m) → m.crashed = false → Mixer.Ready (c.env h r) (c'.env h r) m

/-- One step of one round object. -/
theorem mix_sim (hk : Rekeyed H r c c') {r' : Nat} {m m1 : Mixer.State} {b : Mixer.Action} {p' : Nat × Mixer.State}
    (ho : ObjRel H r c c' h (r', m) p') (hc : H h → r' = r → Mixer.Ready (c.env h r) (c'.env h r) m) (hst : Mixer.step (c.env h r') m b = some m1) :
    ∃ b' m1', SameButWords b b' ∧ (¬ H h → b' = b) ∧ Mixer.step (c'.env h r') p'.2 b' = some m1' ∧ ObjRel H r c c' h (r', m1) (r', m1') ∧
      m1'.crashed = m1.crashed := by
  obtain ⟨r'', m'⟩ := p'
  obtain ⟨he, ho⟩ := ho
  dsimp only at he ho
  subst he
  rcases ho with ⟨hne, rfl⟩ | ⟨hH, rfl, ho⟩
  · refine ⟨b, m1, .same b, fun _ => rfl, ?_, ⟨rfl, .inl ⟨hne, rfl⟩⟩, rfl⟩
    rw [hk.env h r'' hne]; exact hst
  · have hnc := Mixer.step_not_crashed hst
    rcases ho with ⟨_, hl, hI, hI'⟩ | hd
    · obtain ⟨b', m1', h1, h2, h3, h4⟩ := Mixer.like_next hl hI hI' (hc hH rfl) (hk.nCPU h) (hk.taskCap h) (hk.outCap h) hst
      refine ⟨b', m1', h1, fun h => absurd hH h, h2, ?_, ?_⟩
      · refine ⟨rfl, .inr ⟨hH, rfl, ?_⟩⟩
        cases hm : m1.crashed with
        | true => exact .inr (h4 hm)
        | false => exact .inl ⟨rfl, h3 hm⟩
      · cases hm : m1.crashed with
        | true => exact (h4 hm).crashed.2
        | false => rw [(h3 hm).1.crashed, hm]
    · rw [hd.crashed.1] at hnc; cases hnc

theorem setObj_rel {srv srv' : Server.State} (hr : SrvRel H r c c' h srv srv') {i r' : Nat} {m1 m1' : Mixer.State}
    (ho : ObjRel H r c c' h (r', m1) (r', m1')) (hcr : m1'.crashed = m1.crashed) : SrvRel H r c c' h (srv.setObj i r' m1) (srv'.setObj i r' m1') := by
  refine ⟨hr.connections, hr.rounds, hr.waiting, ?_, forall₂_set hr.objs ho⟩
  simp only [Server.State.setObj, hr.crashed, hcr]

/-- The same action of a server, except for the words of a shuffle. -/
inductive SameAct (H : Str → Prop) (h : Str) : Server.Action → Server.Action → Prop
  | same (a : Server.Action) : SameAct H h a a
  | words (i j : Nat) (w w' : List Bytes) : H h → SameAct H h (.work i (.shuffle j w)) (.work i (.shuffle j w'))

/-- The new round object, if there is one. -/
def plan (cfg : Server.Config) (conn : Bool) (loads : GoMap Str Nat) (order : GoMap Str (Nat × Nat)) : Go Mixer.State :=
  if conn = false then .error (.err .failedPrecondition "no connections to other mixes")
  else match cfg.topo.layers with
    | [] => .error .panic
    | first :: _ =>
      match Server.propagate cfg.topo first (Server.convertLoads loads) with
      | .error e => .error e
      | .ok w => Mixer.newMixers cfg.topo (Server.ownMixes cfg.topo cfg.host order) w

theorem newRound_eq (cfg : Server.Config) (s : Server.State) (r : Nat) (loads : GoMap Str Nat) (order : GoMap Str (Nat × Nat)) :
    Server.newRound cfg s r loads order = (match plan cfg s.connections loads order with
      | .error e => .error e
      | .ok m => .ok { s with objs := s.objs ++ [(r, m)], rounds := s.rounds.insert r s.objs.length }) := by
  unfold Server.newRound plan
  cases hc : s.connections with
  | false => simp
  | true =>
    simp only [Bool.true_eq_false, if_false]
    cases hl : cfg.topo.layers with
    | nil => simp
    | cons first rest =>
      dsimp only
      cases hp : Server.propagate cfg.topo first (Server.convertLoads loads) with
      | error e => simp
      | ok w => cases hm : Mixer.newMixers cfg.topo (Server.ownMixes cfg.topo cfg.host order) w <;> simp [hm]

theorem plan_new {cfg : Server.Config} {conn : Bool} {loads : GoMap Str Nat} {order : GoMap Str (Nat × Nat)} {m : Mixer.State}
    (h : plan cfg conn loads order = .ok m) : ∃ mixes w, Mixer.newMixers cfg.topo mixes w = .ok m := by
  unfold plan at h
  split at h
  · cases h
  · split at h
    · cases h
    · split at h
      · cases h
      · exact ⟨_, _, h⟩

/-- One step of a server. -/
theorem server_sim (hk : Rekeyed H r c c') {srv srv' srv1 : Server.State} {a : Server.Action} {resp : Server.Resp}
    (hr : SrvRel H r c c' h srv srv') (hc : Cond H r c c' h srv) (hst : Server.step (c.server h) srv a = some (srv1, resp)) :
    ∃ a' srv1', SameAct H h a a' ∧ Server.step (c'.server h) srv' a' = some (srv1', resp) ∧ SrvRel H r c c' h srv1 srv1' := by
  have hcr : srv.crashed = false := by
    by_contra hc
    simp only [Bool.not_eq_false] at hc
    unfold Server.step at hst
    rw [if_pos hc] at hst
    cases hst
  have hcr' : srv'.crashed = false := by rw [hr.crashed]; exact hcr
  have hcond : ∀ {i : Nat} {r' m}, srv.objs[i]? = some (r', m) → ∀ {b m1}, Mixer.step (c.env h r') m b = some m1 →
      H h → r' = r → Mixer.Ready (c.env h r) (c'.env h r) m := by
    intro i r' m hi b m1 hs hH he
    subst he
    exact hc hH i m hi (Mixer.step_not_crashed hs)
  have hsv : ∀ a', Server.step (c'.server h) srv' a' = Server.step (c'.server h) srv' a' := fun _ => rfl
  unfold Server.step at hst
  rw [if_neg (by simp [hcr])] at hst
  cases a with
  | newRound r' loads order =>
    have hpl : plan (c'.server h) srv'.connections loads order = plan (c.server h) srv.connections loads order := by
      rw [hr.connections]; unfold plan; simp only [Config.server, hk.topo]
    refine ⟨.newRound r' loads order, ?_⟩
    simp only [newRound_eq] at hst
    simp only [Server.step, hcr', newRound_eq, Bool.false_eq_true, if_false, hpl]
    cases hp : plan (c.server h) srv.connections loads order with
    | error e =>
      rw [hp] at hst
      simp only at hst ⊢
      cases e with
      | panic => cases hst; exact ⟨_, .same _, rfl, hr.connections, hr.rounds, hr.waiting, rfl, hr.objs⟩
      | hang => cases hst; exact ⟨_, .same _, rfl, hr⟩
      | err => cases hst; exact ⟨_, .same _, rfl, hr⟩
    | ok m =>
      rw [hp] at hst
      simp only at hst ⊢
      cases hst
      obtain ⟨mixes, w, hm⟩ := plan_new hp
      refine ⟨_, .same _, rfl, hr.connections, ?_, hr.waiting, hcr.symm, ?_⟩
      · simp only [hr.rounds, hr.objs.length_eq]
      · refine List.rel_append hr.objs (.cons ⟨rfl, ?_⟩ .nil)
        by_cases hH : H h ∧ r' = r
        · refine .inr ⟨hH.1, hH.2, .inl ⟨(Mixer.newMixers_spec hm).2.2.2.2.2.2.2.2.1, .refl m, Mixer.inv_init hm, Mixer.inv_init hm⟩⟩
        · exact .inl ⟨hH, rfl⟩
  | endRound r' =>
    refine ⟨.endRound r', ?_⟩
    simp only [Server.step, hcr', Bool.false_eq_true, if_false, hr.rounds]
    simp only at hst
    cases hl : srv.rounds.lookup r' with
    | none => rw [hl] at hst; cases hst; exact ⟨_, .same _, rfl, hr⟩
    | some i =>
      rw [hl] at hst
      simp only at hst ⊢
      cases hi : srv.objs[i]? with
      | none => rw [hi] at hst; cases hst
      | some p =>
        obtain ⟨rr, m⟩ := p
        rw [hi] at hst
        simp only at hst
        obtain ⟨⟨rr', m'⟩, hi', ho⟩ := hr.get hi
        cases hm : Mixer.step ((c.server h).env rr) m .close with
        | none => rw [hm] at hst; cases hst
        | some m1 =>
          rw [hm] at hst
          cases hst
          have hrr := ho.1
          dsimp only at hrr
          subst hrr
          obtain ⟨b', m1', h1, _, h2, h3, h4⟩ := mix_sim hk ho (hcond hi hm) hm
          cases h1
          have h2' : Mixer.step ((c'.server h).env rr') m' .close = some m1' := h2
          simp only [hi', h2']
          have hso := setObj_rel hr (i := i) h3 h4
          exact ⟨_, .same _, rfl, hso.connections, rfl, hso.waiting, hso.crashed, hso.objs⟩
  | addMessages r' ms =>
    refine ⟨.addMessages r' ms, ?_⟩
    simp only [Server.step, hcr', Bool.false_eq_true, if_false, hr.rounds]
    simp only at hst
    cases hl : srv.rounds.lookup r' with
    | none => rw [hl] at hst; cases hst; exact ⟨_, .same _, rfl, hr⟩
    | some i => rw [hl] at hst; cases hst; exact ⟨_, .same _, rfl, hr.connections, rfl, by simp only [hr.waiting], hcr.symm, hr.objs⟩
  | getMessages r' n =>
    refine ⟨.getMessages r' n, ?_⟩
    simp only [Server.step, hcr', Bool.false_eq_true, if_false, hr.rounds]
    simp only at hst
    cases hl : srv.rounds.lookup r' with
    | none => rw [hl] at hst; cases hst; exact ⟨_, .same _, rfl, hr⟩
    | some i => rw [hl] at hst; cases hst; exact ⟨_, .same _, rfl, hr⟩
  | enter k =>
    refine ⟨.enter k, ?_⟩
    simp only [Server.step, hcr', Bool.false_eq_true, if_false, hr.waiting]
    simp only at hst
    cases hw : srv.waiting[k]? with
    | none => rw [hw] at hst; cases hst
    | some e =>
      obtain ⟨i, ms⟩ := e
      rw [hw] at hst
      simp only at hst ⊢
      cases hi : srv.objs[i]? with
      | none => rw [hi] at hst; cases hst
      | some p =>
        obtain ⟨rr, m⟩ := p
        rw [hi] at hst
        simp only at hst
        obtain ⟨⟨rr', m'⟩, hi', ho⟩ := hr.get hi
        cases hm : Mixer.step ((c.server h).env rr) m (.call ms) with
        | none => rw [hm] at hst; cases hst
        | some m1 =>
          rw [hm] at hst
          cases hst
          have hrr := ho.1
          dsimp only at hrr
          subst hrr
          obtain ⟨b', m1', h1, _, h2, h3, h4⟩ := mix_sim hk ho (hcond hi hm) hm
          cases h1
          have h2' : Mixer.step ((c'.server h).env rr') m' (.call ms) = some m1' := h2
          simp only [hi', h2']
          have hso := setObj_rel hr (i := i) h3 h4
          exact ⟨_, .same _, rfl, hso.connections, hso.rounds, rfl, hso.crashed, hso.objs⟩
  | work i b =>
    simp only at hst
    cases hi : srv.objs[i]? with
    | none => rw [hi] at hst; cases hst
    | some p =>
      obtain ⟨rr, m⟩ := p
      rw [hi] at hst
      simp only at hst
      obtain ⟨⟨rr', m'⟩, hi', ho⟩ := hr.get hi
      have hrr := ho.1
      dsimp only at hrr
      subst hrr
      have hm : (∀ ms, b ≠ .call ms) ∧ b ≠ .close ∧ ∃ m1, Mixer.step (c.env h rr') m b = some m1 ∧ srv1 = srv.setObj i rr' m1 ∧ resp = .internal := by
        cases b with
        | call => cases hst
        | close => cases hst
        | _ =>
          simp only at hst
          refine ⟨fun ms => (by simp), (by simp), ?_⟩
          split at hst
          · cases hst
          · next m1 hm => cases hst; exact ⟨m1, hm, rfl, rfl⟩
      obtain ⟨hb1, hb2, m1, hm, rfl, rfl⟩ := hm
      obtain ⟨b', m1', h1, h1', h2, h3, h4⟩ := mix_sim hk ho (hcond hi hm) hm
      have h2' : Mixer.step ((c'.server h).env rr') m' b' = some m1' := h2
      have hb1' : ∀ ms, b' ≠ .call ms := by
        cases h1 with
        | same => exact hb1
        | words => simp
      have hb2' : b' ≠ .close := by
        cases h1 with
        | same => exact hb2
        | words => simp
      refine ⟨.work i b', _, ?_, ?_, setObj_rel hr (i := i) h3 h4⟩
      · by_cases hH : H h
        · cases h1 with
          | same => exact .same _
          | words => exact .words _ _ _ _ hH
        · rw [h1' hH]; exact .same _
      · simp only [Server.step, hcr', Bool.false_eq_true, if_false, hi']
        cases b' with
        | call ms => exact absurd rfl (hb1' ms)
        | close => exact absurd rfl hb2'
        | _ => simp only [h2']

end Resmix.System
