import Verif.Proofs.StackB
set_option autoImplicit false
/-
Servers, workers, handlers and connections keep fitting together.
-/
namespace Resmix.Stack
open Resmix.Mixer (Messages MixOutput)
open Resmix.Sender
open Resmix.Rrpc (SvcErr)
open Resmix.Rrpc.DirectSystem (Good Kept Frame Outcome frame_inner frame_call frame_enqueue frame_await frame_serve accepted)
variable {ζ μ : Type} {c : Config ζ μ} {s s' : State ζ μ} {e : Event ζ μ}

section hands
variable {srv srv' : Server.State} {busy busy' : Str → Prop} {hd : Str → Option Handling} {ow ow' : List Owner} {ins : Nat → Option Owner}

/-- Who holds an object goes on holding it. -/
def Holding (srv srv' : Server.State) : Prop :=
  ∀ (i r : Nat) (m : Mixer.State), srv.objs[i]? = some (r, m) → m.holder ≠ none → ∃ r m', srv'.objs[i]? = some (r, m') ∧ m'.holder ≠ none

theorem Hands.server_ (w : Hands srv busy hd ow ins) (hl : ow'.length = srv'.waiting.length) (hc : ∀ h, ow'.count (some h) = ow.count (some h))
    (ho : Holding srv srv') : Hands srv' busy hd ow' ins where
  hand := w.hand
  plain := w.plain
  len := hl
  inside i hi := by
    obtain ⟨r, m, h1, h2⟩ := w.inside i hi
    exact ho i r m h1 h2
  running h hr := by
    rcases w.running h hr with h1 | h1
    · left; rw [← List.count_pos_iff, hc, List.count_pos_iff]; exact h1
    · exact .inr h1
  owned h hm := w.owned h (by rw [← List.count_pos_iff, ← hc, List.count_pos_iff]; exact hm)
  owned' := w.owned'
  once h := by rw [hc]; exact w.once h
  apart h i hi hm := w.apart h i hi (by rw [← List.count_pos_iff, ← hc, List.count_pos_iff]; exact hm)
  only := w.only

theorem Hands.begin_ (w : Hands srv busy hd ow ins) {h : Str} (hn : hd h = none) (hb : busy h) (hl : ow.length + 1 = srv'.waiting.length)
    (ho : Holding srv srv') : Hands srv' busy (upd hd h (some .running)) (ow ++ [some h]) ins := by
  have hnot : some h ∉ ow := fun hm => by have := w.owned h hm; rw [hn] at this; cases this
  have hnot' : ∀ i, ins i ≠ some (some h) := fun i hi => by have := w.owned' h i hi; rw [hn] at this; cases this
  exact {
    hand := fun h1 hh => by
      by_cases he : h1 = h
      · subst he; exact hb
      · rw [upd_ne _ _ he] at hh; exact w.hand h1 hh
    plain := fun h1 res hh => by
      by_cases he : h1 = h
      · subst he; rw [upd_same] at hh; cases hh
      · rw [upd_ne _ _ he] at hh; exact w.plain h1 res hh
    len := by simpa using hl
    inside := fun i hi => by
      obtain ⟨r, m, h1, h2⟩ := w.inside i hi
      exact ho i r m h1 h2
    running := fun h1 hr => by
      by_cases he : h1 = h
      · subst he; left; simp
      · rw [upd_ne _ _ he] at hr
        rcases w.running h1 hr with h2 | h2
        · left; simp [h2]
        · exact .inr h2
    owned := fun h1 hm => by
      by_cases he : h1 = h
      · subst he; rw [upd_same]
      · rw [upd_ne _ _ he]
        refine w.owned h1 ?_
        simpa [he] using hm
    owned' := fun h1 i hi => by
      by_cases he : h1 = h
      · subst he; exact absurd hi (hnot' i)
      · rw [upd_ne _ _ he]; exact w.owned' h1 i hi
    once := fun h1 => by
      by_cases he : h1 = h
      · subst he
        have : ow.count (some h1) = 0 := List.count_eq_zero.2 hnot
        simp [this]
      · have := w.once h1
        simp only [List.count_append, List.count_singleton]
        have hb : ((some h : Owner) == some h1) = false := by simp [Ne.symm he]
        rw [hb]; simpa using this
    apart := fun h1 i hi hm => by
      by_cases he : h1 = h
      · subst he; exact absurd hi (hnot' i)
      · exact w.apart h1 i hi (by simpa [he] using hm)
    only := w.only }

theorem Hands.answer (w : Hands srv busy hd ow ins) {h : Str} (hn : hd h = none) (hb : busy h) {res : Except SvcErr (Except Str Bytes)}
    (hp : ∀ msg, res ≠ .ok (.error msg)) (hl : ow.length = srv'.waiting.length) (ho : Holding srv srv') :
    Hands srv' busy (upd hd h (some (.done res))) ow ins := by
  have hnot : some h ∉ ow := fun hm => by have := w.owned h hm; rw [hn] at this; cases this
  have hnot' : ∀ i, ins i ≠ some (some h) := fun i hi => by have := w.owned' h i hi; rw [hn] at this; cases this
  exact {
    hand := fun h1 hh => by
      by_cases he : h1 = h
      · subst he; exact hb
      · rw [upd_ne _ _ he] at hh; exact w.hand h1 hh
    plain := fun h1 res' hh => by
      by_cases he : h1 = h
      · subst he; rw [upd_same] at hh; cases hh; exact hp
      · rw [upd_ne _ _ he] at hh; exact w.plain h1 res' hh
    len := hl
    inside := fun i hi => by
      obtain ⟨r, m, h1, h2⟩ := w.inside i hi
      exact ho i r m h1 h2
    running := fun h1 hr => by
      by_cases he : h1 = h
      · subst he; rw [upd_same] at hr; cases hr
      · rw [upd_ne _ _ he] at hr; exact w.running h1 hr
    owned := fun h1 hm => by
      by_cases he : h1 = h
      · subst he; exact absurd hm hnot
      · rw [upd_ne _ _ he]; exact w.owned h1 hm
    owned' := fun h1 i hi => by
      by_cases he : h1 = h
      · subst he; exact absurd hi (hnot' i)
      · rw [upd_ne _ _ he]; exact w.owned' h1 i hi
    once := w.once
    apart := w.apart
    only := w.only }

theorem Hands.enter (w : Hands srv busy hd ow ins) {k i : Nat} {o : Owner} (hk : ow[k]? = some o) (hl : srv'.waiting = srv.waiting.eraseIdx k)
    (hi : ins i = none) {r : Nat} {m' : Mixer.State} (hm : m'.holder ≠ none) (ho : ∀ j, srv'.objs[j]? = if j = i then some (r, m') else srv.objs[j]?) :
    Hands srv' busy hd (ow.eraseIdx k) (upd ins i (some o)) := by
  have hlt := (List.getElem?_eq_some_iff.1 hk).1
  have hp : ow.Perm (o :: ow.eraseIdx k) := by
    have h1 := (List.getElem?_eq_some_iff.1 hk).2
    have := (List.getElem_cons_eraseIdx_perm hlt).symm
    rwa [h1] at this
  have hcount : ∀ h, ow.count (some h) = (ow.eraseIdx k).count (some h) + if o = some h then 1 else 0 := by
    intro h
    rw [hp.count_eq, List.count_cons]
    simp
  have hmem : ∀ h, some h ∈ ow ↔ o = some h ∨ some h ∈ ow.eraseIdx k := by
    intro h; rw [hp.mem_iff, List.mem_cons]; simp [eq_comm]
  exact {
    hand := w.hand
    plain := w.plain
    len := by rw [hl, List.length_eraseIdx, List.length_eraseIdx, w.len]
    inside := fun j hj => by
      rw [ho]
      by_cases he : j = i
      · simp only [he, if_true]; exact ⟨r, m', rfl, hm⟩
      · rw [upd_ne _ _ he] at hj; simp only [he, if_false]; exact w.inside j hj
    running := fun h hr => by
      rcases w.running h hr with h1 | ⟨j, h1⟩
      · rcases (hmem h).1 h1 with rfl | h1
        · right; exact ⟨i, by rw [upd_same]⟩
        · exact .inl h1
      · right
        refine ⟨j, ?_⟩
        rw [upd_ne]; exact h1
        rintro rfl; rw [hi] at h1; cases h1
    owned := fun h hm => w.owned h ((hmem h).2 (.inr hm))
    owned' := fun h j hj => by
      by_cases he : j = i
      · subst he; rw [upd_same] at hj; injection hj with hj
        exact w.owned h ((hmem h).2 (.inl hj))
      · rw [upd_ne _ _ he] at hj; exact w.owned' h j hj
    once := fun h => by have := w.once h; rw [hcount] at this; omega
    apart := fun h j hj hm => by
      by_cases he : j = i
      · subst he; rw [upd_same] at hj; injection hj with hj
        have := w.once h
        rw [hcount, if_pos hj] at this
        have := List.count_pos_iff.2 hm
        omega
      · rw [upd_ne _ _ he] at hj; exact w.apart h j hj ((hmem h).2 (.inr hm))
    only := fun h j j' hj hj' => by
      by_cases he : j = i
      · by_cases he' : j' = i
        · rw [he, he']
        · subst he; rw [upd_same] at hj; injection hj with hj
          rw [upd_ne _ _ he'] at hj'
          exact absurd ((hmem h).2 (.inl hj)) (w.apart h j' hj')
      · rw [upd_ne _ _ he] at hj
        by_cases he' : j' = i
        · subst he'; rw [upd_same] at hj'; injection hj' with hj'
          exact absurd ((hmem h).2 (.inl hj')) (w.apart h j hj)
        · rw [upd_ne _ _ he'] at hj'
          exact w.only h j j' hj hj' }

/-- What the handlers do when the call inside object `i` returns. -/
def released (ack : Bytes) (hd : Str → Option Handling) : Option Owner → Str → Option Handling
  | some (some h0) => upd hd h0 (some (.done (.ok (.ok ack))))
  | _ => hd

theorem Hands.leave (w : Hands srv busy hd ow ins) {i : Nat} {ack : Bytes} (hl : srv'.waiting = srv.waiting)
    (ho : ∀ j, j ≠ i → srv'.objs[j]? = srv.objs[j]?) : Hands srv' busy (released ack hd (ins i)) ow (upd ins i none) := by
  have hins : ∀ j x, upd ins i none j = some x → j ≠ i ∧ ins j = some x := by
    intro j x hj
    by_cases he : j = i
    · subst he; rw [upd_same] at hj; cases hj
    · rw [upd_ne _ _ he] at hj; exact ⟨he, hj⟩
  have hrel : ∀ h, ins i = some (some h) → released ack hd (ins i) h = some (.done (.ok (.ok ack))) := by
    intro h hh; simp [released, hh, upd]
  have hrel' : ∀ h, ins i ≠ some (some h) → released ack hd (ins i) h = hd h := by
    intro h hh
    rcases hx : ins i with _ | _ | h0
    · rfl
    · rfl
    · show upd hd h0 _ h = hd h
      rw [upd_ne]; rintro rfl; exact hh hx
  exact {
    hand := fun h hh => by
      by_cases he : ins i = some (some h)
      · exact w.hand h (by rw [w.owned' h i he]; simp)
      · rw [hrel' h he] at hh; exact w.hand h hh
    plain := fun h res hh => by
      by_cases he : ins i = some (some h)
      · rw [hrel h he] at hh; cases hh; simp
      · rw [hrel' h he] at hh; exact w.plain h res hh
    len := by rw [hl]; exact w.len
    inside := fun j hj => by
      obtain ⟨x, hx⟩ := Option.ne_none_iff_exists'.1 hj
      obtain ⟨h1, h2⟩ := hins j x hx
      rw [ho j h1]; exact w.inside j (by rw [h2]; simp)
    running := fun h hh => by
      by_cases he : ins i = some (some h)
      · rw [hrel h he] at hh; cases hh
      · rw [hrel' h he] at hh
        rcases w.running h hh with h1 | ⟨j, h1⟩
        · exact .inl h1
        · refine .inr ⟨j, ?_⟩
          rw [upd_ne]; exact h1
          rintro rfl; exact he h1
    owned := fun h hm => by
      rw [hrel']; exact w.owned h hm
      intro he; exact w.apart h i he hm
    owned' := fun h j hj => by
      obtain ⟨h1, h2⟩ := hins j _ hj
      rw [hrel']; exact w.owned' h j h2
      intro he; exact h1 (w.only h j i h2 he)
    once := w.once
    apart := fun h j hj => w.apart h j (hins j _ hj).2
    only := fun h j j' hj hj' => w.only h j j' (hins j _ hj).2 (hins j' _ hj').2 }

theorem Hands.busy_ (w : Hands srv busy hd ow ins) (hb : ∀ h, busy h → busy' h) : Hands srv busy' hd ow ins :=
  { w with hand := fun h hh => hb h (w.hand h hh) }

theorem Hands.served (w : Hands srv busy hd ow ins) {h : Str} {x : Handling} (hx : hd h = some x) (hr : x ≠ .running) (hb : ∀ h1, h1 ≠ h → busy h1 → busy' h1) :
    Hands srv busy' (upd hd h none) ow ins := by
  have hne : ∀ h1, hd h1 = some .running → h1 ≠ h := by rintro h1 h2 rfl; rw [hx] at h2; exact hr (Option.some.inj h2)
  exact {
    hand := fun h1 hh => by
      by_cases he : h1 = h
      · subst he; rw [upd_same] at hh; exact absurd rfl hh
      · rw [upd_ne _ _ he] at hh; exact hb h1 he (w.hand h1 hh)
    plain := fun h1 res hh => by
      by_cases he : h1 = h
      · subst he; rw [upd_same] at hh; cases hh
      · rw [upd_ne _ _ he] at hh; exact w.plain h1 res hh
    len := w.len
    inside := w.inside
    running := fun h1 hr => by
      by_cases he : h1 = h
      · subst he; rw [upd_same] at hr; cases hr
      · rw [upd_ne _ _ he] at hr; exact w.running h1 hr
    owned := fun h1 hm => by have := w.owned h1 hm; rw [upd_ne _ _ (hne h1 this)]; exact this
    owned' := fun h1 i hi => by have := w.owned' h1 i hi; rw [upd_ne _ _ (hne h1 this)]; exact this
    once := w.once
    apart := w.apart
    only := w.only }

end hands

/-- The system changes at one server. -/
theorem Wf.at_ (w : Wf c s) {h : Str} (hcon : s'.conns = s.conns) (hwk : s'.worker = s.worker) (hs : ∀ h1, h1 ≠ h → s'.servers h1 = s.servers h1)
    (hh : ∀ h0 h1, h1 ≠ h → s'.handling h0 h1 = s.handling h0 h1) (ho : ∀ h1, h1 ≠ h → s'.owners h1 = s.owners h1)
    (hi : ∀ h1, h1 ≠ h → s'.inside h1 = s.inside h1)
    (hnew : Hands (s'.servers h) (fun h0 => (s.conns h0 h).serving ≠ none) (fun h0 => s'.handling h0 h) (s'.owners h) (s'.inside h)) : Wf c s' where
  links h1 := by rw [hcon, hwk]; exact w.links h1
  hands h1 := by
    rw [hcon]
    by_cases he : h1 = h
    · subst he; exact hnew
    · rw [hs h1 he, ho h1 he, hi h1 he]
      simp only [hh _ h1 he]
      exact w.hands h1

theorem Wf.worker_ (w : Wf c s) {h : Str} {wk : Nat → Worker} (hl : Links c h (s.conns h) wk) (hwk : s'.worker h = wk)
    (hwk' : ∀ h1, h1 ≠ h → s'.worker h1 = s.worker h1) (hcon : s'.conns = s.conns) (hh : s'.handling = s.handling) (ho : s'.owners = s.owners)
    (hi : s'.inside = s.inside) (hs : ∀ h1, Hands (s.servers h1) (fun h0 => (s.conns h0 h1).serving ≠ none) (fun h0 => s.handling h0 h1) (s.owners h1) (s.inside h1) →
      Hands (s'.servers h1) (fun h0 => (s.conns h0 h1).serving ≠ none) (fun h0 => s.handling h0 h1) (s.owners h1) (s.inside h1)) : Wf c s' where
  links h1 := by
    rw [hcon]
    by_cases he : h1 = h
    · subst he; rw [hwk]; exact hl
    · rw [hwk' h1 he]; exact w.links h1
  hands h1 := by
    rw [hcon, hh, ho, hi]; exact hs h1 (w.hands h1)

theorem Wf.conn_ (w : Wf c s) {h h' : Str} {t : Rrpc.DirectSystem.State ζ μ} {wk : Nat → Worker} (hl : Links c h (upd (s.conns h) h' t) wk)
    (hsv : t.serving = (s.conns h h').serving ∨ (s.conns h h').serving = none) (hwk : s'.worker h = wk) (hwk' : ∀ h1, h1 ≠ h → s'.worker h1 = s.worker h1)
    (hcon : s'.conns = upd2 s.conns h h' t) (hh : s'.handling = s.handling) (ho : s'.owners = s.owners) (hi : s'.inside = s.inside)
    (hs : s'.servers = s.servers) : Wf c s' where
  links h1 := by
    rw [hcon]
    by_cases he : h1 = h
    · subst he; rw [hwk, upd2_row]; exact hl
    · rw [hwk' h1 he, upd2_row_ne _ _ _ he]; exact w.links h1
  hands h1 := by
    rw [hcon, hh, ho, hi, hs]
    refine (w.hands h1).busy_ fun h0 hb => ?_
    by_cases he : h0 = h ∧ h1 = h'
    · obtain ⟨rfl, rfl⟩ := he
      rw [upd2_same]
      rcases hsv with h2 | h2
      · rw [h2]; exact hb
      · exact absurd h2 hb
    · rw [upd2_ne _ _ he]; exact hb

/-- No batch can make a worker panic. -/
def NoPanic (c : Config ζ μ) (s : State ζ μ) : Prop := ∀ (h : Str) (i r : Nat) (m : Mixer.State) (out : MixOutput) (rest : List MixOutput) (srv : Server.State)
  (resp : Server.Resp) (rqs : List Request), (s.servers h).objs[i]? = some (r, m) → m.output = out :: rest →
  Server.step (c.sys.server h) (s.servers h) (.work i .recv) = some (srv, resp) → ¬ System.SendPanics (c.sys.sender h r) out rqs

theorem admit_count (a : Server.Action) (resp : Server.Resp) (l : List Owner) (h : Str) : (admit a resp none l).count (some h) = l.count (some h) := by
  unfold admit
  split
  · rw [List.count_append]; simp
  · rfl

theorem recv_holding {cfg : Server.Config} {srv srv' : Server.State} {i : Nat} {resp : Server.Resp} (hs : Server.step cfg srv (.work i .recv) = some (srv', resp)) :
    srv'.waiting = srv.waiting ∧ Holding srv srv' := by
  obtain ⟨h1, r, m, m', h2, h3, h4⟩ := srv_work hs
  refine ⟨h1, fun j r2 m2 h5 h6 => ?_⟩
  rw [h4]
  by_cases hj : j = i
  · subst hj
    rw [h2] at h5; cases h5
    exact ⟨r, m', by simp, by rw [recv_holder h3]; exact h6⟩
  · exact ⟨r2, m2, by simp [hj, h5], h6⟩

theorem good_conn {h h' : Str} {ev : Rrpc.DirectSystem.Event ζ μ} (hp : Proper c s (.conn h h' ev)) (hi : Inner ev = true) :
    Good (c.link h h') (s.conns h h') ev := by
  cases ev <;> first | trivial | exact hp | cases hi

theorem wf_step (hS : Serves c) (w : Wf c s) (hnp : NoPanic c s) (hp : Proper c s e) (hst : Step c s e s') : Wf c s' := by
  cases hst with
  | client ha hs =>
    rename_i h a srv resp
    obtain ⟨h1, h2⟩ := srv_client ha hs
    refine w.at_ (h := h) rfl rfl (fun h1 he => set_ne _ _ he) (fun _ _ _ => rfl) (fun h1 he => upd_ne _ _ he) (fun _ _ => rfl) ?_
    dsimp only
    rw [set_self, upd_same]
    refine (w.hands h).server_ (h1 none _ (w.hands h).len) (admit_count a resp _) fun i r m h3 h4 => ?_
    obtain ⟨m', h5, h6⟩ := h2 i r m h3
    exact ⟨r, m', h5, by rw [h6]; exact h4⟩
  | enter hw ho hs =>
    rename_i h k i ms o srv resp
    obtain ⟨h1, r, m, m', h2, h3, h4, h5⟩ := srv_enter hw hs
    refine w.at_ (h := h) rfl rfl (fun h1 he => set_ne _ _ he) (fun _ _ _ => rfl) (fun h1 he => upd_ne _ _ he) (fun h1 he => upd2_row_ne _ _ _ he) ?_
    dsimp only
    rw [set_self, upd_same, upd2_row]
    refine (w.hands h).enter ho h1 ?_ h4 h5
    by_contra hne
    obtain ⟨r', m2, h6, h7⟩ := (w.hands h).inside i hne
    rw [h2] at h6; cases h6; exact h7 h3
  | work hb hm hs hm' hin =>
    rename_i h i r b m m' srv resp
    obtain ⟨h1, r1, m1, m1', h2, h3, h4⟩ := srv_work hs
    rw [hm] at h2; cases h2
    rw [h4, if_pos rfl] at hm'; cases hm'
    refine w.at_ (h := h) rfl rfl (fun h1 he => set_ne _ _ he) (fun _ _ _ => rfl) (fun _ _ => rfl) (fun _ _ => rfl) ?_
    rw [set_self]
    refine (w.hands h).server_ (by rw [h1]; exact (w.hands h).len) (fun _ => rfl) fun j r2 m2 h5 h6 => ?_
    rw [h4]
    by_cases hj : j = i
    · subst hj
      rw [hm] at h5; cases h5
      rcases hin with hin | hin
      · exact absurd hin h6
      · exact ⟨r, m', by simp, hin⟩
    · exact ⟨r2, m2, by simp [hj, h5], h6⟩
  | leave hb hm hs hm' hin hout =>
    rename_i h i r b m m' srv resp
    obtain ⟨h1, r1, m1, m1', h2, h3, h4⟩ := srv_work hs
    have hrel : (fun h0 => release c s.handling h (s.inside h i) h0 h) = released c.ack (fun h0 => s.handling h0 h) (s.inside h i) := by
      rcases hx : s.inside h i with _ | _ | h0
      · rfl
      · rfl
      · exact upd2_col _ _ _ _
    refine w.at_ (h := h) rfl rfl (fun h1 he => set_ne _ _ he) (fun h0 h1 he => ?_) (fun _ _ => rfl) (fun h1 he => upd2_row_ne _ _ _ he) ?_
    · show release c s.handling h (s.inside h i) h0 h1 = _
      rcases hx : s.inside h i with _ | _ | h2
      · rfl
      · rfl
      · exact upd2_ne _ _ (fun h => he h.2)
    · dsimp only
      rw [set_self, upd2_row, hrel]
      exact (w.hands h).leave h1 fun j hj => by rw [h4, if_neg hj]
  | take hw hm ho hs hb =>
    rename_i h i r m out rest srv resp rqs
    obtain ⟨h1, h2⟩ := recv_holding hs
    refine w.worker_ (h := h) (wk := upd (s.worker h) i ⟨rqs, false, .idle⟩) ((w.links h).todo_ (by rw [hw]) (sendBatch_form hb)) (upd2_row _ _ _ _)
      (fun h1 he => upd2_row_ne _ _ _ he) rfl rfl rfl rfl fun h3 hH => ?_
    by_cases he : h3 = h
    · subst he
      dsimp only
      rw [set_self]
      exact hH.server_ (by rw [h1]; exact hH.len) (fun _ => rfl) h2
    · dsimp only
      rw [set_ne _ _ he]; exact hH
  | takeBad hw hm ho hs hb => exact absurd hb (hnp _ _ _ _ _ _ _ _ _ hm ho hs)
  | panic hc hw =>
    rename_i h i
    have := (w.links h).calm i
    rw [hw] at this; cases this
  | call hc hw hs =>
    rename_i h i now rq rest d t
    have hd : d = false := by have := (w.links h).calm i; rw [hw] at this; exact this
    subst hd
    obtain ⟨A, hI⟩ := (w.links h).conn rq.host
    have hr := (w.links h).todo i rq (by rw [hw]; exact List.mem_cons_self)
    have hg : Good (c.link h rq.host) (s.conns h rq.host) (.call rq.uuid now rq.method (c.enc rq.round rq.messages)) :=
      ⟨hp rq rest _ hw, by rw [hr.1]; exact hS.method h rq.host⟩
    obtain ⟨f1, f2, f3, f4, f5⟩ := frame_call hI hs
    rw [hr.1] at f1
    exact w.conn_ (h := h) ((w.links h).call hw (hI.stepped hg hs) f1 ⟨_, _, hS.codec rq.round rq.messages hr.2⟩ f2 f4) (.inl f5) (upd2_row _ _ _ _)
      (fun h1 he => upd2_row_ne _ _ _ he) rfl rfl rfl rfl rfl
  | enqueue hc hw hs =>
    rename_i h h' i j todo d t
    have hd : d = false := by have := (w.links h).calm i; rw [hw] at this; exact this
    subst hd
    obtain ⟨A, hI⟩ := (w.links h).conn h'
    obtain ⟨f1, f2, f3, f4, f5⟩ := frame_enqueue hI hs
    refine w.conn_ (h := h) ((w.links h).proceed hw rfl rfl (hI.stepped (e := .enqueue j) trivial hs) f1 (by rw [f2]) (fun j' hj' => ?_) (fun j' hj' hne => ?_)
      (fun _ _ h => by cases h) (fun j' x hx ha => ⟨⟨x, by rw [← f2]; exact hx, ha⟩, fun _ => rfl⟩)) (.inl f5) (upd2_row _ _ _ _)
      (fun h1 he => upd2_row_ne _ _ _ he) rfl rfl rfl rfl rfl
    · rw [f4] at hj'
      simp only [List.mem_append, List.mem_singleton, not_or] at hj'
      exact ⟨hj'.1, fun _ h => absurd h hj'.2⟩
    · rw [f4]; simp [hj', hne]
  | await hc hw hs =>
    rename_i h h' i j todo d t
    have hd : d = false := by have := (w.links h).calm i; rw [hw] at this; exact this
    subst hd
    obtain ⟨A, hI⟩ := (w.links h).conn h'
    obtain ⟨f1, f2, f3, f4, x0, f5, f6⟩ := frame_await hI hs
    refine w.conn_ (h := h) ((w.links h).proceed hw rfl rfl (hI.stepped (e := .await j) trivial hs) f1 (by rw [f6]; simp) (fun j' hj' => ⟨by rw [← f3]; exact hj', fun h => by cases h⟩)
      (fun j' hj' _ => by rw [f3]; exact hj') (fun _ _ h => by cases h) (fun j' x hx ha => ?_)) (.inl f4) (upd2_row _ _ _ _)
      (fun h1 he => upd2_row_ne _ _ _ he) rfl rfl rfl rfl rfl
    rw [f6] at hx
    by_cases hj : j' = j
    · subst hj
      have hlt := (List.getElem?_eq_some_iff.1 f5).1
      simp [hlt] at hx
      subst hx; cases ha
    · rw [List.getElem?_set_ne (Ne.symm hj)] at hx
      exact ⟨⟨x, hx, ha⟩, fun h => absurd h hj⟩
  | ret hc hw hx hg =>
    rename_i h h' i j todo d x
    have hd : d = false := by have := (w.links h).calm i; rw [hw] at this; exact this
    subst hd
    exact w.worker_ (h := h) ((w.links h).ret hw) (upd2_row _ _ _ _) (fun h1 he => upd2_row_ne _ _ _ he) rfl rfl rfl rfl fun _ hH => hH
  | conn he hc hs =>
    rename_i h h' ev t
    obtain ⟨A, hI⟩ := (w.links h).conn h'
    have hg := good_conn hp he
    have f := frame_inner hI he hg hs
    obtain ⟨A', hI'⟩ := hI.stepped hg hs
    refine w.conn_ (h := h) ((w.links h).go ⟨A', hI'⟩ f.data f.calls f.entered) f.serving rfl (fun _ _ => rfl) rfl rfl rfl rfl ?_
    funext h1
    by_cases h2 : h1 = h
    · subst h2; simp [State.setServer, hI'.alive]
    · simp [State.setServer, h2]
  | start hq hn hv hd hs =>
    rename_i h h' cache j q o f u a r ms srv resp
    refine w.at_ (h := h') rfl rfl (fun h1 he => set_ne _ _ he) (fun h0 h1 he => upd2_ne _ _ (fun h => he h.2)) (fun h1 he => upd_ne _ _ he) (fun _ _ => rfl) ?_
    have hb : (s.conns h h').serving ≠ none := by rw [hq]; simp
    dsimp only
    rw [set_self, upd_same, upd2_col]
    unfold Server.step at hs
    split at hs
    · cases hs
    simp only at hs
    split at hs
    · cases hs
      exact (w.hands h').answer (h := h) hn hb (fun msg h => by cases h) (w.hands h').len (fun i r m h1 h2 => ⟨r, m, h1, h2⟩)
    · cases hs
      exact (w.hands h').begin_ (h := h) hn hb (by simp [(w.hands h').len]) (fun i r m h1 h2 => ⟨r, m, h1, h2⟩)
  | startBad hc hq hn hv hd =>
    rename_i h h' cache j q o f u a
    obtain ⟨A, hI⟩ := (w.links h).conn h'
    obtain ⟨x, d, o', f', -, h2, -, -, h3⟩ := accepted hI hq c.ack cache
    rw [h3] at hv
    simp only [List.cons.injEq, Prod.mk.injEq, and_true] at hv
    obtain ⟨r, ms, h4⟩ := ((w.links h).args h' d (List.mem_of_getElem? h2)).2
    rw [hv.2.2.2, hd] at h4; cases h4
  | serve hc hn hs =>
    rename_i h h' cache res t
    obtain ⟨A, hI⟩ := (w.links h).conn h'
    have hg : Good (c.link h h') (s.conns h h') (.serve (fun _ _ _ _ => res) cache) := fun _ _ _ _ => (w.hands h').plain h res hn
    obtain ⟨f1, f2, f3, f4, -⟩ := frame_serve hI hg hs
    have hl := (w.links h).go (hI.stepped hg hs) f1 (by rw [f2]; exact Kept.refl _) f3
    exact {
      links := fun h1 => by
        dsimp only
        by_cases he : h1 = h
        · subst he; rw [upd2_row]; exact hl
        · rw [upd2_row_ne _ _ _ he]; exact w.links h1
      hands := fun h1 => by
        dsimp only
        by_cases he : h1 = h'
        · subst he
          rw [upd2_col]
          refine (w.hands h1).served (h := h) (x := .done res) hn (by simp) fun h2 h3 h4 => ?_
          rw [upd2_ne _ _ (fun h => h3 h.1)]; exact h4
        · rw [upd2_col_ne _ _ _ he]
          refine (w.hands h1).busy_ fun h0 hb => ?_
          rw [upd2_ne _ _ (fun h => he h.2)]; exact hb }
  | reject hc hq hn hv hs =>
    rename_i h h' cache j q t
    obtain ⟨A, hI⟩ := (w.links h).conn h'
    obtain ⟨x, d, o', f', -, -, -, -, h3⟩ := accepted hI hq c.ack cache
    rw [h3] at hv; cases hv

end Resmix.Stack
