import Verif.Proofs.StackA
import Verif.Proofs.SystemF
set_option autoImplicit false
/-
Servers, workers, handlers and connections fit together.
-/
namespace Resmix.Stack
open Resmix.Mixer (Messages MixOutput)
open Resmix.Sender
open Resmix.Rrpc (SvcErr)
open Resmix.Rrpc.DirectSystem (Good Kept Frame Outcome frame_inner frame_call frame_enqueue frame_await frame_serve accepted)
variable {ζ μ : Type} {c : Config ζ μ} {s s' : State ζ μ} {e : Event ζ μ}

/-- The call a worker is busy with. -/
def Stage.call : Stage → Option (Str × Nat)
  | .idle => none
  | .made h j => some (h, j)
  | .queued h j => some (h, j)
  | .waiting h j => some (h, j)

/-- The calls of the workers of a host, and its connections. -/
structure Links (c : Config ζ μ) (h : Str) (conns : Str → Rrpc.DirectSystem.State ζ μ) (worker : Nat → Worker) : Prop where
  conn : ∀ h', ∃ A, Rrpc.DirectSystem.Inv (c.link h h') (conns h') A
  args : ∀ h', ∀ d ∈ (conns h').data, d.method = addMessagesMethod ∧ ∃ r ms, c.dec d.args = some (r, ms)
  todo : ∀ i, ∀ rq ∈ (worker i).todo, rq.method = addMessagesMethod ∧ rq.round < 2 ^ 32
  calm : ∀ i, (worker i).doomed = false
  made : ∀ (h' : Str) (j : Nat), j < (conns h').client.calls.length → j ∉ (conns h').entered → ∃ i, (worker i).stage = .made h' j
  waits : ∀ (h' : Str) (j : Nat) (x : Rrpc.DirectClient.Call Outcome), (conns h').client.calls[j]? = some x → x.awaiting = false →
    ∃ i, (worker i).stage = .made h' j ∨ (worker i).stage = .queued h' j
  stage : ∀ i h' j, (worker i).stage.call = some (h', j) → j < (conns h').client.calls.length
  fresh : ∀ i h' j, (worker i).stage = .made h' j → j ∉ (conns h').entered
  uniq : ∀ i i' h' j, (worker i).stage.call = some (h', j) → (worker i').stage.call = some (h', j) → i = i'

/-- The AddMessages handlers a server runs: `busy` says for which connections it has a request, `hd` what the handlers do. -/
structure Hands (srv : Server.State) (busy : Str → Prop) (hd : Str → Option Handling) (ow : List Owner) (ins : Nat → Option Owner) : Prop where
  hand : ∀ h, hd h ≠ none → busy h
  plain : ∀ h res, hd h = some (.done res) → ∀ msg, res ≠ .ok (.error msg)
  len : ow.length = srv.waiting.length
  inside : ∀ i, ins i ≠ none → ∃ r m, srv.objs[i]? = some (r, m) ∧ m.holder ≠ none
  running : ∀ h, hd h = some .running → some h ∈ ow ∨ ∃ i, ins i = some (some h)
  owned : ∀ h, some h ∈ ow → hd h = some .running
  owned' : ∀ h i, ins i = some (some h) → hd h = some .running
  once : ∀ h, ow.count (some h) ≤ 1
  apart : ∀ h i, ins i = some (some h) → some h ∉ ow
  only : ∀ h i i', ins i = some (some h) → ins i' = some (some h) → i = i'

structure Wf (c : Config ζ μ) (s : State ζ μ) : Prop where
  links : ∀ h, Links c h (s.conns h) (s.worker h)
  hands : ∀ h', Hands (s.servers h') (fun h => (s.conns h h').serving ≠ none) (fun h => s.handling h h') (s.owners h') (s.inside h')

theorem wf_init (c : Config ζ μ) (conn : Str → Bool) : Wf c (init conn) where
  links h :=
    { conn := fun _ => ⟨[], Rrpc.DirectSystem.inv_init _⟩
      args := fun _ _ hd => by cases hd
      todo := fun _ _ hr => by cases hr
      calm := fun _ => rfl
      made := fun _ _ h => by cases h
      waits := fun _ _ _ h => by simp [init, Rrpc.DirectSystem.init, Rrpc.DirectClient.init] at h
      stage := fun _ _ _ h => by cases h
      fresh := fun _ _ _ h => by cases h
      uniq := fun _ _ _ _ h => by cases h }
  hands h :=
    { hand := fun _ h => absurd rfl h
      plain := fun _ _ h => by cases h
      len := rfl
      inside := fun _ h => absurd rfl h
      running := fun _ h => by cases h
      owned := fun _ h => by cases h
      owned' := fun _ _ h => by cases h
      once := fun _ => by simp [init]
      apart := fun _ _ h => by cases h
      only := fun _ _ _ h => by cases h }

theorem upd2_same {A B V : Type} [DecidableEq A] [DecidableEq B] (f : A → B → V) (a : A) (b : B) (v : V) : upd2 f a b v a b = v := by
  simp [upd2]

theorem upd2_ne {A B V : Type} [DecidableEq A] [DecidableEq B] (f : A → B → V) {a a' : A} {b b' : B} (v : V) (h : ¬ (a' = a ∧ b' = b)) :
    upd2 f a b v a' b' = f a' b' := by
  simp only [upd2, if_neg h]

theorem set_self (s : State ζ μ) (h : Str) (srv : Server.State) : (s.setServer h srv).servers h = srv := by simp [State.setServer]

theorem set_ne (s : State ζ μ) {h h' : Str} (srv : Server.State) (hne : h' ≠ h) : (s.setServer h srv).servers h' = s.servers h' := by
  simp [State.setServer, hne]

/-! ### What the steps of a server change -/

theorem setObj_get {srv : Server.State} {i r : Nat} {m m' : Mixer.State} (hm : srv.objs[i]? = some (r, m)) (j : Nat) :
    (srv.setObj i r m').objs[j]? = if j = i then some (r, m') else srv.objs[j]? := by
  have hi := (List.getElem?_eq_some_iff.1 hm).1
  simp only [Server.State.setObj, List.getElem?_set]
  by_cases h : j = i
  · subst h; simp [hi]
  · simp [h, Ne.symm h]

theorem srv_client {cfg : Server.Config} {t : Topology} {srv srv' : Server.State} {a : Server.Action} {resp : Server.Resp} (ha : System.ClientCall t a)
    (hs : Server.step cfg srv a = some (srv', resp)) :
    (∀ (o : Owner) (l : List Owner), l.length = srv.waiting.length → (admit a resp o l).length = srv'.waiting.length) ∧
    ∀ (i r : Nat) (m : Mixer.State), srv.objs[i]? = some (r, m) → ∃ m', srv'.objs[i]? = some (r, m') ∧ m'.holder = m.holder := by
  unfold Server.step at hs
  split at hs
  · cases hs
  have same : ∀ (i r : Nat) (m : Mixer.State), srv.objs[i]? = some (r, m) → ∃ m', srv.objs[i]? = some (r, m') ∧ m'.holder = m.holder :=
    fun i r m h => ⟨m, h, rfl⟩
  cases a with
  | newRound r ls order =>
    simp only at hs
    split at hs
    · next srv1 hn =>
      cases hs
      obtain ⟨_, _, _, _, _, _, _, _, rfl⟩ := Server.newRound_eq hn
      refine ⟨fun o l h => h, fun i r m h => ⟨m, ?_, rfl⟩⟩
      dsimp only
      rw [List.getElem?_append_left (List.getElem?_eq_some_iff.1 h).1]; exact h
    · cases hs; exact ⟨fun o l h => h, same⟩
    · cases hs; exact ⟨fun o l h => h, same⟩
  | endRound r =>
    simp only at hs
    split at hs
    · cases hs; exact ⟨fun o l h => h, same⟩
    · split at hs
      · cases hs
      · rename_i i _ _ rr m hm
        split at hs
        · cases hs
        · next m' hm' =>
          cases hs
          refine ⟨fun o l h => h, fun j r2 m2 h => ?_⟩
          have hh : m'.holder = m.holder := by
            unfold Mixer.step at hm'
            split at hm'
            · cases hm'
            · dsimp only at hm'
              split at hm' <;> (cases hm'; rfl)
          show ∃ m', (srv.setObj i rr _).objs[j]? = _ ∧ _
          rw [setObj_get hm]
          by_cases hj : j = i
          · subst hj
            rw [hm] at h; cases h
            exact ⟨m', by simp, hh⟩
          · simp only [hj, if_false]; exact ⟨m2, h, rfl⟩
  | addMessages r ms =>
    simp only at hs
    split at hs
    · cases hs; exact ⟨fun o l h => h, same⟩
    · cases hs; exact ⟨fun o l h => by simp [admit, h], same⟩
  | getMessages r mix =>
    simp only at hs
    split at hs
    · cases hs; exact ⟨fun o l h => h, same⟩
    · cases hs; exact ⟨fun o l h => h, same⟩
  | enter k => exact absurd ha id
  | work i b => exact absurd ha id

theorem srv_enter {cfg : Server.Config} {srv srv' : Server.State} {k i : Nat} {ms : List Messages} {resp : Server.Resp} (hw : srv.waiting[k]? = some (i, ms))
    (hs : Server.step cfg srv (.enter k) = some (srv', resp)) :
    srv'.waiting = srv.waiting.eraseIdx k ∧ ∃ r m m', srv.objs[i]? = some (r, m) ∧ m.holder = none ∧ m'.holder ≠ none ∧
      ∀ j, srv'.objs[j]? = if j = i then some (r, m') else srv.objs[j]? := by
  unfold Server.step at hs
  split at hs
  · cases hs
  simp only [hw] at hs
  split at hs
  · cases hs
  · next r m hm =>
    split at hs
    · cases hs
    · next m' hm' =>
      cases hs
      have : m.holder = none ∧ m'.holder ≠ none := by
        unfold Mixer.step at hm'
        split at hm'
        · cases hm'
        · dsimp only at hm'
          split at hm'
          · cases hm'
          · next h => cases hm'; exact ⟨by simpa using h, by simp⟩
      exact ⟨rfl, r, m, m', hm, this.1, this.2, setObj_get hm⟩

theorem srv_work {cfg : Server.Config} {srv srv' : Server.State} {i : Nat} {b : Mixer.Action} {resp : Server.Resp}
    (hs : Server.step cfg srv (.work i b) = some (srv', resp)) :
    srv'.waiting = srv.waiting ∧ ∃ r m m', srv.objs[i]? = some (r, m) ∧ Mixer.step (cfg.env r) m b = some m' ∧
      ∀ j, srv'.objs[j]? = if j = i then some (r, m') else srv.objs[j]? := by
  unfold Server.step at hs
  split at hs
  · cases hs
  simp only at hs
  split at hs
  · cases hs
  · next r m hm =>
    cases b <;> simp only at hs
    case call => cases hs
    case close => cases hs
    all_goals
      split at hs
      · cases hs
      · next m' hm' =>
        cases hs
        exact ⟨rfl, r, m, m', hm, hm', setObj_get hm⟩

theorem recv_holder {env : Mixer.Env} {m m' : Mixer.State} (h : Mixer.step env m .recv = some m') : m'.holder = m.holder := by
  unfold Mixer.step at h
  split at h
  · cases h
  · dsimp only at h
    split at h
    · cases h
    · cases h; rfl

/-! ### What senders send -/

theorem sendHosts_form {sd : MessageSender} {out : MixOutput} : ∀ (p : GoMap Str (List Bytes)) (rqs : List Request), SendHosts sd out p (.ok rqs) →
    ∀ rq ∈ rqs, rq.method = addMessagesMethod ∧ rq.round < 2 ^ 32
  | [], rqs, h, rq, hr => by
    simp only [SendHosts, Except.ok.injEq] at h
    subst h; cases hr
  | (host, onions) :: rest, rqs, h, rq, hr => by
    obtain ⟨x, hx, h⟩ := h
    cases x with
    | error e => cases h
    | ok x =>
      dsimp only at h
      split at h
      · obtain ⟨res, h1, h2⟩ := h
        cases res with
        | error e => cases h2
        | ok l =>
          simp only [Except.map, Except.ok.injEq] at h2
          subst h2
          rcases List.mem_cons.1 hr with rfl | hr
          · unfold CreateRequest at hx
            split at hx
            · cases hx
            · obtain ⟨order, -, hx⟩ := hx
              cases hx
              exact ⟨rfl, Nat.mod_lt _ (by norm_num)⟩
          · exact sendHosts_form rest l h1 rq hr
      · cases h

theorem sendBatch_form {sd : MessageSender} {out : MixOutput} {rqs : List Request} (h : SendBatch sd out (.ok rqs)) :
    ∀ rq ∈ rqs, rq.method = addMessagesMethod ∧ rq.round < 2 ^ 32 := by
  unfold SendBatch at h
  split at h
  · cases h
  · obtain ⟨order, -, h⟩ := h
    exact sendHosts_form order rqs h

/-! ### Steps -/

theorem upd_same {A V : Type} [DecidableEq A] (f : A → V) (a : A) (v : V) : upd f a v a = v := by simp [upd]

theorem upd_ne {A V : Type} [DecidableEq A] (f : A → V) {a a' : A} (v : V) (h : a' ≠ a) : upd f a v a' = f a' := by simp [upd, h]

theorem upd_self {A V : Type} [DecidableEq A] (f : A → V) (a : A) : upd f a (f a) = f := by
  funext x; by_cases h : x = a <;> simp [upd, h]

theorem upd2_row {A B V : Type} [DecidableEq A] [DecidableEq B] (f : A → B → V) (a : A) (b : B) (v : V) : upd2 f a b v a = upd (f a) b v := by
  funext x; simp [upd2, upd]

theorem upd2_row_ne {A B V : Type} [DecidableEq A] [DecidableEq B] (f : A → B → V) {a a' : A} (b : B) (v : V) (h : a' ≠ a) : upd2 f a b v a' = f a' := by
  funext x; simp [upd2, h]

theorem upd2_col {A B V : Type} [DecidableEq A] [DecidableEq B] (f : A → B → V) (a : A) (b : B) (v : V) :
    (fun x => upd2 f a b v x b) = upd (fun x => f x b) a v := by
  funext x; simp [upd2, upd]

theorem upd2_col_ne {A B V : Type} [DecidableEq A] [DecidableEq B] (f : A → B → V) (a : A) {b b' : B} (v : V) (h : b' ≠ b) :
    (fun x => upd2 f a b v x b') = fun x => f x b' := by
  funext x; simp [upd2, h]

section links
variable {h h' : Str} {conns : Str → Rrpc.DirectSystem.State ζ μ} {worker : Nat → Worker} {t : Rrpc.DirectSystem.State ζ μ} {i j : Nat}

/-- A connection goes on by itself. -/
theorem Links.go (w : Links c h conns worker) (hi : ∃ A, Rrpc.DirectSystem.Inv (c.link h h') t A) (hd : t.data = (conns h').data)
    (hk : Kept (conns h').client.calls t.client.calls) (he : t.entered = (conns h').entered) : Links c h (upd conns h' t) worker where
  conn h2 := by
    by_cases hh : h2 = h'
    · subst hh; simpa [upd] using hi
    · simpa only [upd_ne _ _ hh] using w.conn h2
  args h2 := by
    by_cases hh : h2 = h'
    · subst hh; simpa [upd, hd] using w.args h2
    · simpa only [upd_ne _ _ hh] using w.args h2
  todo := w.todo
  calm := w.calm
  made h2 j := by
    by_cases hh : h2 = h'
    · subst hh; simpa [upd, he, hk.1] using w.made h2 j
    · simpa only [upd_ne _ _ hh] using w.made h2 j
  waits h2 j y := by
    by_cases hh : h2 = h'
    · subst hh
      simp only [upd_same]
      intro hy ha
      obtain ⟨y', h3, -, h4⟩ := hk.2 j y hy
      exact w.waits h2 j y' h3 (h4 ▸ ha)
    · simpa only [upd_ne _ _ hh] using w.waits h2 j y
  stage i h2 j := by
    by_cases hh : h2 = h'
    · subst hh; simpa [upd, hk.1] using w.stage i h2 j
    · simpa only [upd_ne _ _ hh] using w.stage i h2 j
  fresh i h2 j := by
    by_cases hh : h2 = h'
    · subst hh; simpa [upd, he] using w.fresh i h2 j
    · simpa only [upd_ne _ _ hh] using w.fresh i h2 j
  uniq := w.uniq

/-- A worker gets other calls to make. -/
theorem Links.todo_ (w : Links c h conns worker) {rqs : List Request} {st : Stage} (hst : (worker i).stage = st)
    (hf : ∀ rq ∈ rqs, rq.method = addMessagesMethod ∧ rq.round < 2 ^ 32) : Links c h conns (upd worker i ⟨rqs, false, st⟩) := by
  have hS : ∀ i1, (upd worker i ⟨rqs, false, st⟩ i1).stage = (worker i1).stage := by
    intro i1
    by_cases hh : i1 = i
    · subst hh; rw [upd_same]; exact hst.symm
    · rw [upd_ne _ _ hh]
  exact {
    conn := w.conn
    args := w.args
    todo := fun i1 => by
      by_cases hh : i1 = i
      · subst hh; simpa only [upd_same] using hf
      · simpa only [upd_ne _ _ hh] using w.todo i1
    calm := fun i1 => by
      by_cases hh : i1 = i
      · subst hh; simp only [upd_same]
      · simpa only [upd_ne _ _ hh] using w.calm i1
    made := by simpa only [hS] using w.made
    waits := by simpa only [hS] using w.waits
    stage := by simpa only [hS] using w.stage
    fresh := by simpa only [hS] using w.fresh
    uniq := by simpa only [hS] using w.uniq }

theorem Links.ret (w : Links c h conns worker) {todo : List Request} (hw : worker i = ⟨todo, false, .waiting h' j⟩) :
    Links c h conns (upd worker i ⟨todo, false, .idle⟩) := by
  have hn : ∀ k h2 j2, (upd worker i ⟨todo, false, .idle⟩ k).stage.call = some (h2, j2) → (worker k).stage.call = some (h2, j2) := by
    intro k h2 j2
    by_cases hh : k = i
    · subst hh; rw [upd_same]; intro h; cases h
    · rw [upd_ne _ _ hh]; exact id
  have hb : ∀ k, (worker k).stage.call ≠ none → k ≠ i ∨ (worker k).stage = .waiting h' j := by
    intro k _
    by_cases hh : k = i
    · subst hh; right; rw [hw]
    · exact .inl hh
  exact {
    conn := w.conn
    args := w.args
    todo := fun k => by
      by_cases hh : k = i
      · subst hh; have := w.todo k; rw [hw] at this; simpa only [upd_same] using this
      · simpa only [upd_ne _ _ hh] using w.todo k
    calm := fun k => by
      by_cases hh : k = i
      · subst hh; simp only [upd_same]
      · simpa only [upd_ne _ _ hh] using w.calm k
    made := fun h2 j2 h3 h4 => by
      obtain ⟨k, hk⟩ := w.made h2 j2 h3 h4
      refine ⟨k, ?_⟩
      rw [upd_ne]; exact hk
      rintro rfl; rw [hw] at hk; cases hk
    waits := fun h2 j2 x h3 h4 => by
      obtain ⟨k, hk⟩ := w.waits h2 j2 x h3 h4
      refine ⟨k, ?_⟩
      rw [upd_ne]; exact hk
      rintro rfl; rw [hw] at hk; rcases hk with hk | hk <;> cases hk
    stage := fun k h2 j2 h3 => w.stage k h2 j2 (hn k h2 j2 h3)
    fresh := fun k h2 j2 h3 => by
      refine w.fresh k h2 j2 ?_
      by_cases hh : k = i
      · subst hh; rw [upd_same] at h3; cases h3
      · rw [upd_ne _ _ hh] at h3; exact h3
    uniq := fun k k' h2 j2 h3 h4 => w.uniq k k' h2 j2 (hn k h2 j2 h3) (hn k' h2 j2 h4) }

theorem Links.call (w : Links c h conns worker) {rq : Request} {rest : List Request} (hw : worker i = ⟨rq :: rest, false, .idle⟩) {u : Str} {now : Nat} {a : Bytes}
    (hi : ∃ A, Rrpc.DirectSystem.Inv (c.link h h') t A) (hd : t.data = (conns h').data ++ [⟨addMessagesMethod, a⟩]) (ha : ∃ r ms, c.dec a = some (r, ms))
    (hk : t.client.calls = (conns h').client.calls ++ [{ uuid := u, start := now, closed := false, awaiting := false, got := none }])
    (he : t.entered = (conns h').entered) :
    Links c h (upd conns h' t) (upd worker i ⟨rest, false, .made h' (conns h').client.calls.length⟩) := by
  set n := (conns h').client.calls.length with hn
  have hlen : t.client.calls.length = n + 1 := by rw [hk]; simp [hn]
  obtain ⟨A, hI⟩ := w.conn h'
  have hold : ∀ k h2 j2, k ≠ i → (upd worker i ⟨rest, false, .made h' n⟩ k).stage.call = some (h2, j2) → (worker k).stage.call = some (h2, j2) := by
    intro k h2 j2 hk; rw [upd_ne _ _ hk]; exact id
  have hst : ∀ k h2 j2, (worker k).stage.call = some (h2, j2) → (upd worker i ⟨rest, false, .made h' n⟩ k) = worker k := by
    intro k h2 j2 hc
    rw [upd_ne]; rintro rfl; rw [hw] at hc; cases hc
  exact {
    conn := fun h2 => by
      by_cases hh : h2 = h'
      · subst hh; simpa [upd] using hi
      · simpa only [upd_ne _ _ hh] using w.conn h2
    args := fun h2 => by
      by_cases hh : h2 = h'
      · subst hh
        rw [upd_same, hd]
        intro d hd'
        rcases List.mem_append.1 hd' with h1 | h1
        · exact w.args h2 d h1
        · simp only [List.mem_singleton] at h1; subst h1; exact ⟨rfl, ha⟩
      · simpa only [upd_ne _ _ hh] using w.args h2
    todo := fun k => by
      by_cases hh : k = i
      · subst hh
        have := w.todo k; rw [hw] at this
        rw [upd_same]
        exact fun rq' h => this rq' (List.mem_cons_of_mem _ h)
      · simpa only [upd_ne _ _ hh] using w.todo k
    calm := fun k => by
      by_cases hh : k = i
      · subst hh; simp only [upd_same]
      · simpa only [upd_ne _ _ hh] using w.calm k
    made := fun h2 j2 => by
      by_cases hh : h2 = h'
      · subst hh
        rw [upd_same, he, hlen]
        intro h3 h4
        by_cases hj : j2 = n
        · exact ⟨i, by rw [upd_same, hj]⟩
        · obtain ⟨k, hk⟩ := w.made h2 j2 (by omega) h4
          exact ⟨k, by rw [hst k h2 j2 (by rw [hk]; rfl)]; exact hk⟩
      · rw [upd_ne _ _ hh]
        intro h3 h4
        obtain ⟨k, hk⟩ := w.made h2 j2 h3 h4
        exact ⟨k, by rw [hst k h2 j2 (by rw [hk]; rfl)]; exact hk⟩
    waits := fun h2 j2 x => by
      by_cases hh : h2 = h'
      · subst hh
        rw [upd_same, hk]
        intro h3 h4
        by_cases hj : j2 = n
        · exact ⟨i, .inl (by rw [upd_same, hj])⟩
        · have hlt : j2 < n := by
            have := (List.getElem?_eq_some_iff.1 h3).1
            simp at this; omega
          rw [List.getElem?_append_left hlt] at h3
          obtain ⟨k, hk⟩ := w.waits h2 j2 x h3 h4
          exact ⟨k, by rw [hst k h2 j2 (by rcases hk with hk | hk <;> rw [hk] <;> rfl)]; exact hk⟩
      · rw [upd_ne _ _ hh]
        intro h3 h4
        obtain ⟨k, hk⟩ := w.waits h2 j2 x h3 h4
        exact ⟨k, by rw [hst k h2 j2 (by rcases hk with hk | hk <;> rw [hk] <;> rfl)]; exact hk⟩
    stage := fun k h2 j2 h3 => by
      by_cases hh : k = i
      · subst hh
        rw [upd_same] at h3
        simp only [Stage.call, Option.some.injEq, Prod.mk.injEq] at h3
        obtain ⟨rfl, rfl⟩ := h3
        rw [upd_same, hlen]; omega
      · have := w.stage k h2 j2 (hold k h2 j2 hh h3)
        by_cases hh2 : h2 = h'
        · subst hh2; rw [upd_same, hlen]; omega
        · rw [upd_ne _ _ hh2]; exact this
    fresh := fun k h2 j2 h3 => by
      by_cases hh : k = i
      · subst hh
        rw [upd_same] at h3
        simp only [Stage.made.injEq] at h3
        obtain ⟨rfl, rfl⟩ := h3
        rw [upd_same, he]
        intro hmem
        have := hI.bound _ hmem
        omega
      · rw [upd_ne _ _ hh] at h3
        have := w.fresh k h2 j2 h3
        by_cases hh2 : h2 = h'
        · subst hh2; rw [upd_same, he]; exact this
        · rw [upd_ne _ _ hh2]; exact this
    uniq := fun k k' h2 j2 h3 h4 => by
      by_cases hh : k = i
      · subst hh
        by_cases hh' : k' = k
        · exact hh'.symm
        · rw [upd_same] at h3
          simp only [Stage.call, Option.some.injEq, Prod.mk.injEq] at h3
          obtain ⟨rfl, rfl⟩ := h3
          have := w.stage k' _ _ (hold k' _ _ hh' h4)
          omega
      · by_cases hh' : k' = i
        · subst hh'
          rw [upd_same] at h4
          simp only [Stage.call, Option.some.injEq, Prod.mk.injEq] at h4
          obtain ⟨rfl, rfl⟩ := h4
          have := w.stage k _ _ (hold k _ _ hh h3)
          omega
        · exact w.uniq k k' h2 j2 (hold k h2 j2 hh h3) (hold k' h2 j2 hh' h4) }

/-- A worker with a call proceeds with it. -/
theorem Links.proceed (w : Links c h conns worker) {st st' : Stage} {todo : List Request} (hw : worker i = ⟨todo, false, st⟩) (hc : st.call = some (h', j))
    (hc' : st'.call = some (h', j)) (hi : ∃ A, Rrpc.DirectSystem.Inv (c.link h h') t A) (hd : t.data = (conns h').data)
    (hk : t.client.calls.length = (conns h').client.calls.length)
    (hm : ∀ j', j' ∉ t.entered → j' ∉ (conns h').entered ∧ (st = .made h' j → j' = j → st' = .made h' j))
    (hm' : ∀ j', j' ∉ (conns h').entered → j' ≠ j → j' ∉ t.entered) (hf : ∀ h2 j2, st' ≠ .made h2 j2)
    (hx : ∀ (j' : Nat) (x : Rrpc.DirectClient.Call Outcome), t.client.calls[j']? = some x → x.awaiting = false →
      (∃ x' : Rrpc.DirectClient.Call Outcome, (conns h').client.calls[j']? = some x' ∧ x'.awaiting = false) ∧ (j' = j → st' = .queued h' j)) :
    Links c h (upd conns h' t) (upd worker i ⟨todo, false, st'⟩) := by
  have hcall : ∀ k, (upd worker i ⟨todo, false, st'⟩ k).stage.call = (worker k).stage.call := by
    intro k
    by_cases hh : k = i
    · subst hh; rw [upd_same, hw]; rw [hc, hc']
    · rw [upd_ne _ _ hh]
  have hone : ∀ k h2 j2, (worker k).stage.call = some (h2, j2) → ¬ (h2 = h' ∧ j2 = j) → k ≠ i := by
    rintro k h2 j2 h3 h4 rfl
    rw [hw] at h3
    dsimp only at h3
    rw [hc] at h3
    injection h3 with h3; injection h3 with h5 h6
    exact h4 ⟨h5.symm, h6.symm⟩
  exact {
    conn := fun h2 => by
      by_cases hh : h2 = h'
      · subst hh; simpa [upd] using hi
      · simpa only [upd_ne _ _ hh] using w.conn h2
    args := fun h2 => by
      by_cases hh : h2 = h'
      · subst hh; rw [upd_same, hd]; exact w.args h2
      · simpa only [upd_ne _ _ hh] using w.args h2
    todo := fun k => by
      by_cases hh : k = i
      · subst hh
        have := w.todo k; rw [hw] at this
        rw [upd_same]; exact this
      · simpa only [upd_ne _ _ hh] using w.todo k
    calm := fun k => by
      by_cases hh : k = i
      · subst hh; simp only [upd_same]
      · simpa only [upd_ne _ _ hh] using w.calm k
    made := fun h2 j2 => by
      by_cases hh : h2 = h'
      · subst hh
        rw [upd_same, hk]
        intro h3 h4
        obtain ⟨k, hk⟩ := w.made h2 j2 h3 (hm j2 h4).1
        by_cases hki : k = i
        · subst hki
          rw [hw] at hk
          dsimp only at hk
          rw [hk] at hc
          simp only [Stage.call, Option.some.injEq, Prod.mk.injEq, true_and] at hc
          subst hc
          exact ⟨k, by rw [upd_same]; exact (hm j2 h4).2 hk rfl⟩
        · exact ⟨k, by rw [upd_ne _ _ hki]; exact hk⟩
      · rw [upd_ne _ _ hh]
        intro h3 h4
        obtain ⟨k, hk⟩ := w.made h2 j2 h3 h4
        exact ⟨k, by rw [upd_ne _ _ (hone k h2 j2 (by rw [hk]; rfl) (fun h => hh h.1))]; exact hk⟩
    waits := fun h2 j2 x => by
      by_cases hh : h2 = h'
      · subst hh
        rw [upd_same]
        intro h3 h4
        obtain ⟨⟨x', h5, h6⟩, h7⟩ := hx j2 x h3 h4
        by_cases hj : j2 = j
        · subst hj
          exact ⟨i, .inr (by rw [upd_same]; exact h7 rfl)⟩
        · obtain ⟨k, hk⟩ := w.waits h2 j2 x' h5 h6
          exact ⟨k, by rw [upd_ne _ _ (hone k h2 j2 (by rcases hk with hk | hk <;> rw [hk] <;> rfl) (fun h => hj h.2))]; exact hk⟩
      · rw [upd_ne _ _ hh]
        intro h3 h4
        obtain ⟨k, hk⟩ := w.waits h2 j2 x h3 h4
        exact ⟨k, by rw [upd_ne _ _ (hone k h2 j2 (by rcases hk with hk | hk <;> rw [hk] <;> rfl) (fun h => hh h.1))]; exact hk⟩
    stage := fun k h2 j2 h3 => by
      rw [hcall] at h3
      have := w.stage k h2 j2 h3
      by_cases hh2 : h2 = h'
      · subst hh2; rw [upd_same, hk]; exact this
      · rw [upd_ne _ _ hh2]; exact this
    fresh := fun k h2 j2 h3 => by
      by_cases hh : k = i
      · subst hh
        rw [upd_same] at h3
        exact absurd h3 (hf h2 j2)
      · rw [upd_ne _ _ hh] at h3
        have := w.fresh k h2 j2 h3
        by_cases hh2 : h2 = h'
        · subst hh2
          rw [upd_same]
          refine hm' j2 this ?_
          rintro rfl
          exact hh (w.uniq k i h2 j2 (by rw [h3]; rfl) (by rw [hw]; exact hc))
        · rw [upd_ne _ _ hh2]; exact this
    uniq := fun k k' h2 j2 h3 h4 => w.uniq k k' h2 j2 (by rw [← hcall]; exact h3) (by rw [← hcall]; exact h4) }

end links

end Resmix.Stack
