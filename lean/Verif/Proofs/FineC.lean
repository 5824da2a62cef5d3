import Verif.Proofs.FineB
set_option autoImplicit false
/- What is ordered before what in the fine-grained mixer (C122). -/
namespace Resmix.MixerFine
open Resmix.Mixer (Messages Task Env)
open Resmix.Race

/-- The memory of a mix that is not guarded by the mutex. -/
def On (n : Str) : Loc → Prop
  | .slot n' _ => n' = n
  | .shuffler n' => n' = n
  | _ => False

/-- The memory guarded by the mutex. -/
def Guarded : Loc → Prop
  | .workload _ => True
  | .received _ => True
  | _ => False

def Touch (e : Ev) (n : Str) : Prop := ∃ l, On n l ∧ (e.op = .read l ∨ e.op = .write l)

def Put (e : Ev) (n : Str) : Prop := ∃ l, On n l ∧ e.op = .write l

theorem Put.touch {e : Ev} {n : Str} (h : Put e n) : Touch e n := by
  obtain ⟨l, h1, h2⟩ := h; exact ⟨l, h1, .inr h2⟩

def AllKn (tr : List Ev) (n : Str) (g : Gid) : Prop := ∀ (i : Nat) e, tr[i]? = some e → Touch e n → Known tr g i
def WrKn (tr : List Ev) (n : Str) (g : Gid) : Prop := ∀ (i : Nat) e, tr[i]? = some e → Put e n → Known tr g i
def WrRel (tr : List Ev) (n : Str) (y : Sync) : Prop := ∀ (i : Nat) e, tr[i]? = some e → Put e n → Rel tr y i

theorem AllKn.wr {tr : List Ev} {n : Str} {g : Gid} (h : AllKn tr n g) : WrKn tr n g := fun i e he hp => h i e he hp.touch

theorem get_app {tr evs : List Ev} {i : Nat} {e : Ev} (h : (tr ++ evs)[i]? = some e) : tr[i]? = some e ∨ e ∈ evs := by
  by_cases hi : i < tr.length
  · rw [List.getElem?_append_left hi] at h; exact .inl h
  · rw [List.getElem?_append_right (by omega)] at h; exact .inr (List.mem_of_getElem? h)

theorem AllKn.mono {tr evs : List Ev} {n : Str} {g : Gid} (h : AllKn tr n g) (hn : ∀ e ∈ evs, ¬ Touch e n) : AllKn (tr ++ evs) n g := by
  intro i e he ht
  rcases get_app he with he | he
  · exact (h i e he ht).mono _
  · exact absurd ht (hn e he)

theorem WrKn.mono {tr evs : List Ev} {n : Str} {g : Gid} (h : WrKn tr n g) (hn : ∀ e ∈ evs, ¬ Put e n) : WrKn (tr ++ evs) n g := by
  intro i e he ht
  rcases get_app he with he | he
  · exact (h i e he ht).mono _
  · exact absurd ht (hn e he)

theorem WrRel.mono {tr evs : List Ev} {n : Str} {y : Sync} (h : WrRel tr n y) (hn : ∀ e ∈ evs, ¬ Put e n) : WrRel (tr ++ evs) n y := by
  intro i e he ht
  rcases get_app he with he | he
  · exact (h i e he ht).mono _
  · exact absurd ht (hn e he)

/-- The goroutine that has seen everything does something. -/
theorem AllKn.own {tr : List Ev} {n : Str} {g : Gid} {e : Ev} (h : AllKn tr n g) (hg : e.g = g) : AllKn (tr ++ [e]) n g := by
  intro i a ha ht
  rcases get_snoc ha with ⟨rfl, rfl⟩ | ⟨_, ha⟩
  · exact hg ▸ Known.self tr a
  · exact (h i a ha ht).mono _

theorem touch_sync_rel {g : Gid} {y : Sync} {n : Str} : ¬ Touch ⟨g, .release y⟩ n := by rintro ⟨l, -, h | h⟩ <;> cases h
theorem touch_sync_acq {g : Gid} {y : Sync} {n : Str} : ¬ Touch ⟨g, .acquire y⟩ n := by rintro ⟨l, -, h | h⟩ <;> cases h

theorem WrKn.release {tr : List Ev} {n : Str} {g : Gid} {y : Sync} (h : WrKn tr n g) : WrRel (tr ++ [⟨g, .release y⟩]) n y := by
  intro i e he hp
  rcases get_snoc he with ⟨rfl, rfl⟩ | ⟨_, he⟩
  · exact absurd hp.touch touch_sync_rel
  · exact (h i e he hp).release rfl

theorem WrRel.acquire {tr : List Ev} {n : Str} {g : Gid} {y : Sync} (h : WrRel tr n y) : WrKn (tr ++ [⟨g, .acquire y⟩]) n g := by
  intro i e he hp
  rcases get_snoc he with ⟨rfl, rfl⟩ | ⟨_, he⟩
  · exact absurd hp.touch touch_sync_acq
  · exact (h i e he hp).acquire rfl

/-- What is ordered, for one mix. -/
structure KN (s : State) (tr : List Ev) (n : Str) : Prop where
  fresh : ∀ M, s.mixes n = some M → M.once = .fresh → ∀ (i : Nat) e, tr[i]? = some e → Touch e n →
    ∃ k, (e.op = .read (.slot n k) ∨ e.op = .write (.slot n k)) ∧ M.totalWorkload ≤ (k : Int) ∧ (∀ t ∈ unwritten s, t.mix = n → t.idx ≠ (k : Int)) ∧
      ((∃ w t, (w, t, true) ∈ s.busy ∧ t.mix = n ∧ Known tr (.worker w) i) ∨ Rel tr (.wg n) i)
  enter : ∀ M g, s.mixes n = some M → (g, n, SPc.enter) ∈ s.shufs → M.once = .fresh → AllKn tr n (.shuf g)
  copy : ∀ g orig, (g, n, SPc.copy orig) ∈ s.shufs → AllKn tr n (.shuf g)
  put : ∀ g orig p words i, (g, n, SPc.put orig p words i) ∈ s.shufs → AllKn tr n (.shuf g)
  leave : ∀ g, (g, n, SPc.leave) ∈ s.shufs → WrKn tr n (.shuf g)
  after : ∀ g, (g, n, SPc.after) ∈ s.shufs → WrKn tr n (.shuf g)
  wait : ∀ g, (g, n, SPc.wait) ∈ s.shufs → WrKn tr n (.shuf g)
  send : ∀ g, (g, n, SPc.send) ∈ s.shufs → WrKn tr n (.shuf g)
  sw : ∀ M, s.mixes n = some M → M.shuffleWait = 0 → WrRel tr n (.shuffled n)
  done : ∀ M, s.mixes n = some M → M.once = .done → WrRel tr n (.once n)
  out : ∀ (k : Nat), s.output[k]? = some n → WrRel tr n (.out (s.received.length + k))
  recv : n ∈ s.received → WrKn tr n .sender
  get : ∀ (k : Nat), s.getters[k]? = some (n, .reading) → WrKn tr n (.getter k)

theorem KN.mono {s : State} {tr evs : List Ev} {n : Str} (h : KN s tr n) (hn : ∀ e ∈ evs, ¬ Touch e n) : KN s (tr ++ evs) n where
  fresh := fun M hM hf i e he ht => by
    rcases get_app he with he | he
    · obtain ⟨k, h1, h2, h3, h4⟩ := h.fresh M hM hf i e he ht
      refine ⟨k, h1, h2, h3, ?_⟩
      rcases h4 with ⟨w, t, a, b, c⟩ | h4
      · exact .inl ⟨w, t, a, b, c.mono _⟩
      · exact .inr (h4.mono _)
    · exact absurd ht (hn e he)
  enter := fun M g a b c => (h.enter M g a b c).mono hn
  copy := fun g o a => (h.copy g o a).mono hn
  put := fun g o p w i a => (h.put g o p w i a).mono hn
  leave := fun g a => (h.leave g a).mono fun e he hp => hn e he hp.touch
  after := fun g a => (h.after g a).mono fun e he hp => hn e he hp.touch
  wait := fun g a => (h.wait g a).mono fun e he hp => hn e he hp.touch
  send := fun g a => (h.send g a).mono fun e he hp => hn e he hp.touch
  sw := fun M a b => (h.sw M a b).mono fun e he hp => hn e he hp.touch
  done := fun M a b => (h.done M a b).mono fun e he hp => hn e he hp.touch
  out := fun k a => (h.out k a).mono fun e he hp => hn e he hp.touch
  recv := fun a => (h.recv a).mono fun e he hp => hn e he hp.touch
  get := fun k a => (h.get k a).mono fun e he hp => hn e he hp.touch

/-- Nothing of the mix changes that matters. -/
theorem KN.weak {s s' : State} {tr : List Ev} {n : Str} (h : KN s tr n)
    (hm : ∀ M', s'.mixes n = some M' → ∃ M, s.mixes n = some M ∧ M'.once = M.once ∧ M'.shuffleWait = M.shuffleWait ∧ M'.totalWorkload ≤ M.totalWorkload)
    (hu : ∀ t ∈ unwritten s', t.mix = n → t ∈ unwritten s ∨ ∃ M, s.mixes n = some M ∧ t.idx < M.totalWorkload)
    (hb : ∀ w t, (w, t, true) ∈ s.busy → t.mix = n → (w, t, true) ∈ s'.busy)
    (hs : ∀ g pc, (g, n, pc) ∈ s'.shufs → (g, n, pc) ∈ s.shufs ∨ pc = .start)
    (ho : ∀ (k : Nat), s'.output[k]? = some n → s'.received.length + k = s.received.length + k ∧ s.output[k]? = some n)
    (hr : n ∈ s'.received → n ∈ s.received) (hg : ∀ (k : Nat), s'.getters[k]? = some (n, .reading) → s.getters[k]? = some (n, .reading)) : KN s' tr n where
  fresh := fun M hM hf i e he ht => by
    obtain ⟨M0, hM0, e1, e2, e3⟩ := hm M hM
    obtain ⟨k, h1, h2, h3, h4⟩ := h.fresh M0 hM0 (e1 ▸ hf) i e he ht
    refine ⟨k, h1, by omega, ?_, ?_⟩
    · intro t htu htn
      rcases hu t htu htn with h' | ⟨M1, hM1, hlt⟩
      · exact h3 t h' htn
      · rw [hM0] at hM1; cases hM1; omega
    · rcases h4 with ⟨w, t, a, b, c⟩ | h4
      · exact .inl ⟨w, t, hb w t a b, b, c⟩
      · exact .inr h4
  enter := fun M g a b c => by
    obtain ⟨M0, hM0, e1, e2, e3⟩ := hm M a
    rcases hs _ _ b with b | b
    · exact h.enter M0 g hM0 b (e1 ▸ c)
    · cases b
  copy := fun g o a => (hs _ _ a).elim (fun a => h.copy g o a) (fun a => by cases a)
  put := fun g o p w i a => (hs _ _ a).elim (fun a => h.put g o p w i a) (fun a => by cases a)
  leave := fun g a => (hs _ _ a).elim (fun a => h.leave g a) (fun a => by cases a)
  after := fun g a => (hs _ _ a).elim (fun a => h.after g a) (fun a => by cases a)
  wait := fun g a => (hs _ _ a).elim (fun a => h.wait g a) (fun a => by cases a)
  send := fun g a => (hs _ _ a).elim (fun a => h.send g a) (fun a => by cases a)
  sw := fun M a b => by
    obtain ⟨M0, hM0, e1, e2, e3⟩ := hm M a
    exact h.sw M0 hM0 (e2 ▸ b)
  done := fun M a b => by
    obtain ⟨M0, hM0, e1, e2, e3⟩ := hm M a
    exact h.done M0 hM0 (e1 ▸ b)
  out := fun k a => by
    obtain ⟨e, a⟩ := ho k a
    rw [e]; exact h.out k a
  recv := fun a => h.recv (hr a)
  get := fun k a => h.get k (hg k a)

/-- Everything a step must keep. -/
structure KInv (s : State) (tr : List Ev) : Prop where
  rf : RaceFree tr
  mu : ∀ (i : Nat) e, tr[i]? = some e → (∃ l, Guarded l ∧ (e.op = .read l ∨ e.op = .write l)) →
    match s.holder with
    | some (g, _, _) => Known tr (.caller g) i
    | none => Rel tr .mu i
  kn : ∀ n, KN s tr n

theorem same_mem {s s' : State} (h : s'.mixes = s.mixes) (n : Str) :
    ∀ M', s'.mixes n = some M' → ∃ M, s.mixes n = some M ∧ M'.once = M.once ∧ M'.shuffleWait = M.shuffleWait ∧ M'.totalWorkload ≤ M.totalWorkload := by
  intro M' hM'; rw [h] at hM'; exact ⟨M', hM', rfl, rfl, Int.le_refl _⟩

theorem set_mem {s : State} {n0 : Str} {M0 M1 : Mem} (hM : s.mixes n0 = some M0) (h1 : M1.once = M0.once) (h2 : M1.shuffleWait = M0.shuffleWait)
    (h3 : M1.totalWorkload ≤ M0.totalWorkload) (n : Str) :
    ∀ M', (s.set n0 M1).mixes n = some M' → ∃ M, s.mixes n = some M ∧ M'.once = M.once ∧ M'.shuffleWait = M.shuffleWait ∧ M'.totalWorkload ≤ M.totalWorkload := by
  intro M' hM'
  rw [set_mixes] at hM'
  split at hM'
  · next e => cases hM'; exact ⟨M0, by rw [e]; exact hM, h1, h2, h3⟩
  · exact ⟨M', hM', rfl, rfl, Int.le_refl _⟩

theorem touch_guard {e : Ev} {l : Loc} {n : Str} (hl : Guarded l) (he : e.op = .read l ∨ e.op = .write l) : ¬ Touch e n := by
  rintro ⟨l', ho, h⟩
  have : l' = l := by rcases he with he | he <;> rcases h with h | h <;> rw [he] at h <;> cases h <;> rfl
  subst this
  cases l' <;> simp_all [Guarded, On]

/-- Events of the goroutine in AddMessages. -/
def AddEvs (g : Nat) (evs : List Ev) : Prop :=
  ∀ e ∈ evs, e.g = .caller g ∧ ((∃ y, e.op = .release y) ∨ (∃ y, e.op = .acquire y) ∨ ∃ l, Guarded l ∧ (e.op = .read l ∨ e.op = .write l))

theorem AddEvs.no_touch {g : Nat} {evs : List Ev} (h : AddEvs g evs) (n : Str) : ∀ e ∈ evs, ¬ Touch e n := by
  intro e he
  obtain ⟨-, ⟨y, h1⟩ | ⟨y, h1⟩ | ⟨l, hl, h1⟩⟩ := h e he
  · rintro ⟨l, -, h | h⟩ <;> rw [h1] at h <;> cases h
  · rintro ⟨l, -, h | h⟩ <;> rw [h1] at h <;> cases h
  · exact touch_guard hl h1

/-- A step of the holder of the mutex: at most one event. -/
theorem KInv.hold {s s' : State} {tr : List Ev} (h : KInv s tr) {g : Nat} {pc pc' : HPc} {r r' : List Messages} (hh : s.holder = some (g, pc, r))
    (hh' : s'.holder = some (g, pc', r')) {evs : List Ev} (hev : evs = [] ∨ ∃ e, evs = [e]) (hae : AddEvs g evs) (hk : ∀ n, KN s' (tr ++ evs) n) :
    KInv s' (tr ++ evs) := by
  rcases hev with rfl | ⟨e, rfl⟩
  · rw [List.append_nil] at *
    refine ⟨h.rf, ?_, hk⟩
    have := h.mu
    rw [hh] at this; rw [hh']; exact this
  · have hg := (hae e (by simp)).1
    have hmu := h.mu
    rw [hh] at hmu
    refine ⟨h.rf.snoc ?_, ?_, hk⟩
    · intro i a ha hc
      rw [hg]
      obtain ⟨l, hc⟩ := hc
      obtain ⟨-, ⟨y, h1⟩ | ⟨y, h1⟩ | ⟨l', hl', h1⟩⟩ := hae e (by simp)
      · rw [h1] at hc; simp at hc
      · rw [h1] at hc; simp at hc
      · refine hmu i a ha ⟨l', hl', ?_⟩
        have : l = l' := by
          rcases hc with ⟨-, h2 | h2⟩ | ⟨-, h2⟩ <;> rcases h1 with h1 | h1 <;> rw [h1] at h2 <;> cases h2 <;> rfl
        subst this
        rcases hc with ⟨h2, -⟩ | ⟨h2, -⟩
        · exact .inr h2
        · exact .inl h2
    · intro i a ha hl
      rw [hh']
      show Known (tr ++ [e]) (.caller g) i
      rcases get_snoc ha with ⟨rfl, rfl⟩ | ⟨_, ha⟩
      · exact hg ▸ Known.self tr a
      · exact (hmu i a ha hl).mono _

theorem unwritten_hold {s s' : State} (hq : s'.queue = s.queue) (hb : s'.busy = s.busy) (hh : ∀ t ∈ hTasks s', t ∈ hTasks s) : ∀ t ∈ unwritten s', t ∈ unwritten s := by
  intro t ht
  simp only [unwritten, List.mem_append, hq, hb] at ht ⊢
  rcases ht with (ht | ht) | ht
  · exact .inl (.inl (hh t ht))
  · exact .inl (.inr ht)
  · exact .inr ht

set_option maxHeartbeats 1000000 in
theorem KInv.add {env : Env} {s s' : State} {tr evs : List Ev} (h : KInv s tr) (ht : TInv s) (hs : AddStep env s evs s') (hc : s'.crashed = false) :
    KInv s' (tr ++ evs) := by
  have hsame : ∀ (evs : List Ev) (t : State), (∀ n, ∀ e ∈ evs, ¬ Touch e n) → t.mixes = s.mixes → (∀ u ∈ unwritten t, u ∈ unwritten s) → t.busy = s.busy →
      (∀ e ∈ t.shufs, e ∈ s.shufs ∨ e.2.2 = .start) → t.output = s.output → t.received = s.received → t.getters = s.getters → ∀ n, KN t (tr ++ evs) n := by
    intro evs t h0 h1 h2 h3 h4 h5 h6 h7 n
    refine ((h.kn n).mono (h0 n)).weak (same_mem h1 n) (fun u hu _ => .inl (h2 u hu)) (fun w u hu _ => by rw [h3]; exact hu) (fun g pc he => h4 _ he)
      (fun k hk => ?_) (by rw [h6]; exact id) (by rw [h7]; exact fun _ => id)
    rw [h5] at hk; rw [h6]; exact ⟨rfl, hk⟩
  cases hs with
  | unknown => simp [State.crash] at hc
  | pushClosed => simp [State.crash] at hc
  | lock ms hh =>
    have hmu := h.mu
    rw [hh] at hmu
    refine ⟨h.rf.snoc_sync (.inr ⟨_, rfl⟩), ?_, hsame _ _ ?_ rfl (unwritten_hold rfl rfl (by simp [hTasks, holderTasks])) rfl (fun e he => .inl he) rfl rfl rfl⟩
    · intro i a ha hl
      rcases get_snoc ha with ⟨rfl, rfl⟩ | ⟨_, ha⟩
      · obtain ⟨l, -, hl | hl⟩ := hl <;> cases hl
      · exact (hmu i a ha hl).acquire rfl
    · intro n e he; simp at he; subst he; exact touch_sync_acq
  | @unlock g hh =>
    have hmu := h.mu
    rw [hh] at hmu
    refine ⟨h.rf.snoc_sync (.inl ⟨_, rfl⟩), ?_, hsame _ _ ?_ rfl (unwritten_hold rfl rfl (by simp [hTasks, holderTasks])) rfl (fun e he => .inl he) rfl rfl rfl⟩
    · intro i a ha hl
      rcases get_snoc ha with ⟨rfl, rfl⟩ | ⟨_, ha⟩
      · obtain ⟨l, -, hl | hl⟩ := hl <;> cases hl
      · exact (hmu i a ha hl).release rfl
    · intro n e he; simp at he; subst he; exact touch_sync_rel
  | @batch g m rest hh hn =>
    have hae : AddEvs g [] := fun e he => by simp at he
    exact h.hold hh rfl (.inl rfl) hae
      (hsame _ _ (fun n => by simp) rfl (unwritten_hold rfl rfl (by simp [hTasks, holderTasks])) rfl (fun e he => .inl he) rfl rfl rfl)
  | @index g m o os acc rest M hh hM =>
    have hae : AddEvs g [⟨.caller g, .read (.workload m.logicalReceiver)⟩] := fun e he => by
      simp at he; subst he; exact ⟨rfl, .inr (.inr ⟨_, (show Guarded (.workload _) from trivial), .inl rfl⟩)⟩
    exact h.hold hh rfl (.inr ⟨_, rfl⟩) hae
      (hsame _ _ hae.no_touch rfl (unwritten_hold rfl rfl (by simp [hTasks, hh, holderTasks])) rfl (fun e he => .inl he) rfl rfl rfl)
  | @load g m o os acc i rest M hh hM =>
    have hae : AddEvs g [⟨.caller g, .read (.workload m.logicalReceiver)⟩] := fun e he => by
      simp at he; subst he; exact ⟨rfl, .inr (.inr ⟨_, (show Guarded (.workload _) from trivial), .inl rfl⟩)⟩
    exact h.hold hh rfl (.inr ⟨_, rfl⟩) hae
      (hsame _ _ hae.no_touch rfl (unwritten_hold rfl rfl (by simp [hTasks, hh, holderTasks])) rfl (fun e he => .inl he) rfl rfl rfl)
  | @store g m o os acc i v rest M hh hM =>
    obtain ⟨⟨M', hM', hi, hv⟩, hta⟩ := ht.hold _ _ _ hh
    rw [hM] at hM'; cases hM'
    have hae : AddEvs g [⟨.caller g, .write (.workload m.logicalReceiver)⟩] := fun e he => by
      simp at he; subst he; exact ⟨rfl, .inr (.inr ⟨_, (show Guarded (.workload _) from trivial), .inr rfl⟩)⟩
    refine h.hold hh rfl (.inr ⟨_, rfl⟩) hae fun n => ?_
    refine ((h.kn n).mono (hae.no_touch n)).weak ?_ ?_ (fun w u hu _ => hu) (fun g pc he => .inl he) (fun k hk => ⟨rfl, hk⟩) id (fun _ => id)
    · exact set_mem (M1 := { M with totalWorkload := v - 1 }) hM rfl rfl (by show v - 1 ≤ _; omega) n
    · intro t htu htn
      simp only [unwritten, hTasks, hh, holderTasks, set_queue, set_busy, List.mem_append, List.mem_singleton] at htu ⊢
      rcases htu with ((h1 | h1) | h1) | h1
      · exact .inl (.inl (.inl h1))
      · subst h1; dsimp only at htn; subst htn
        exact .inr ⟨M, hM, by dsimp only; omega⟩
      · exact .inl (.inl (.inr h1))
      · exact .inl (.inr h1)
  | @count g m acc rest M hh hM =>
    have hae : AddEvs g [⟨.caller g, .read (.received m.logicalReceiver)⟩] := fun e he => by
      simp at he; subst he; exact ⟨rfl, .inr (.inr ⟨_, (show Guarded (.received _) from trivial), .inl rfl⟩)⟩
    exact h.hold hh rfl (.inr ⟨_, rfl⟩) hae
      (hsame _ _ hae.no_touch rfl (unwritten_hold rfl rfl (by simp [hTasks, hh, holderTasks])) rfl (fun e he => .inl he) rfl rfl rfl)
  | @counted g m acc v rest M hh hM =>
    have hae : AddEvs g [⟨.caller g, .write (.received m.logicalReceiver)⟩] := fun e he => by
      simp at he; subst he; exact ⟨rfl, .inr (.inr ⟨_, (show Guarded (.received _) from trivial), .inr rfl⟩)⟩
    refine h.hold hh rfl (.inr ⟨_, rfl⟩) hae fun n => ?_
    refine ((h.kn n).mono (hae.no_touch n)).weak ?_ ?_ (fun w u hu _ => hu) (fun g pc he => .inl he) (fun k hk => ⟨rfl, hk⟩) id (fun _ => id)
    · exact set_mem (M1 := { M with totalReceived := M.totalReceived.insert (m.physicalSender, m.logicalSender) (v + m.messages.length) }) hM rfl rfl (Int.le_refl _) n
    · intro t htu htn
      refine .inl ?_
      simpa only [unwritten, hTasks, hh, holderTasks, set_queue, set_busy] using htu
  | @push g n t ts rest hh hcl hcap =>
    have hae : AddEvs g [⟨.caller g, .release (.task (s.taken + s.queue.length))⟩] := fun e he => by
      simp at he; subst he; exact ⟨rfl, .inl ⟨_, rfl⟩⟩
    refine h.hold hh rfl (.inr ⟨_, rfl⟩) hae (hsame _ _ hae.no_touch rfl ?_ rfl (fun e he => .inl he) rfl rfl rfl)
    intro u hu
    simp only [unwritten, hTasks, hh, holderTasks, List.mem_append, List.mem_singleton, List.mem_cons] at hu ⊢
    tauto
  | @check g n rest M order hh hM ho =>
    have hae : AddEvs g [] := fun e he => by simp at he
    exact h.hold hh rfl (.inl rfl) hae
      (hsame _ _ (fun n => by simp) rfl (unwritten_hold rfl rfl (by simp [hTasks, holderTasks])) rfl (fun e he => .inl he) rfl rfl rfl)
  | @same g n k v todo rest M hh hM hv =>
    have hae : AddEvs g [⟨.caller g, .read (.received n)⟩] := fun e he => by
      simp at he; subst he; exact ⟨rfl, .inr (.inr ⟨_, (show Guarded (.received _) from trivial), .inl rfl⟩)⟩
    exact h.hold hh rfl (.inr ⟨_, rfl⟩) hae
      (hsame _ _ hae.no_touch rfl (unwritten_hold rfl rfl (by simp [hTasks, holderTasks])) rfl (fun e he => .inl he) rfl rfl rfl)
  | @differs g n k v todo rest M hh hM hv =>
    have hae : AddEvs g [⟨.caller g, .read (.received n)⟩] := fun e he => by
      simp at he; subst he; exact ⟨rfl, .inr (.inr ⟨_, (show Guarded (.received _) from trivial), .inl rfl⟩)⟩
    exact h.hold hh rfl (.inr ⟨_, rfl⟩) hae
      (hsame _ _ hae.no_touch rfl (unwritten_hold rfl rfl (by simp [hTasks, holderTasks])) rfl (fun e he => .inl he) rfl rfl rfl)
  | @spawn g n rest hh =>
    have hae : AddEvs g [⟨.caller g, .release (.spawn s.spawned)⟩] := fun e he => by
      simp at he; subst he; exact ⟨rfl, .inl ⟨_, rfl⟩⟩
    refine h.hold hh rfl (.inr ⟨_, rfl⟩) hae
      (hsame _ _ hae.no_touch rfl (unwritten_hold rfl rfl (by simp [hTasks, holderTasks])) rfl ?_ rfl rfl rfl)
    intro e he
    rcases List.mem_append.1 he with he | he
    · exact .inl he
    · simp at he; subst he; exact .inr rfl

/-- A step that does not touch what the mutex guards. -/
theorem KInv.unguarded {s s' : State} {tr evs : List Ev} (h : KInv s tr) (hh : s'.holder = s.holder)
    (hev : ∀ e ∈ evs, ∀ l, Guarded l → e.op ≠ .read l ∧ e.op ≠ .write l) (hrf : RaceFree (tr ++ evs)) (hk : ∀ n, KN s' (tr ++ evs) n) : KInv s' (tr ++ evs) := by
  refine ⟨hrf, ?_, hk⟩
  intro i e he hl
  have hmu := h.mu
  rcases get_app he with he | he
  · have := hmu i e he hl
    rw [hh]
    cases hho : s.holder with
    | none => rw [hho] at this; exact this.mono _
    | some x => rw [hho] at this; exact this.mono _
  · obtain ⟨l, hl, h1 | h1⟩ := hl
    · exact absurd h1 (hev e he l hl).1
    · exact absurd h1 (hev e he l hl).2

theorem not_fresh_of_sw {s : State} (h : SInv s) {n : Str} {M : Mem} (hM : s.mixes n = some M) (hsw : M.shuffleWait = 0) : M.wg = 0 := by
  have := h.mix _ _ hM
  refine this.wg fun hf => ?_
  have := this.fresh hf
  omega

theorem bid_unique {s : State} (h : TInv s) {a b : Nat × Task × Bool} (ha : a ∈ s.busy) (hb : b ∈ s.busy) (e : a.1 = b.1) : a = b := by
  obtain ⟨i, hi, rfl⟩ := List.mem_iff_getElem.1 ha
  obtain ⟨k, hk, rfl⟩ := List.mem_iff_getElem.1 hb
  have := (List.Nodup.getElem_inj_iff h.bid (i := i) (j := k) (hi := by simpa using hi) (hj := by simpa using hk)).1 (by simpa using e)
  subst this; rfl

set_option maxHeartbeats 1000000 in
theorem KInv.work {env : Env} {s s' : State} {tr evs : List Ev} (h : KInv s tr) (ht : TInv s) (hsi : SInv s) (hs : WorkStep env s evs s') (hc : s'.crashed = false) :
    KInv s' (tr ++ evs) := by
  cases hs with
  | panic => simp [State.crash] at hc
  | range => simp [State.crash] at hc
  | negative => simp [State.crash] at hc
  | @take t q w hq hw hidle =>
    refine h.unguarded rfl (by simp) (h.rf.snoc_sync (.inr ⟨_, rfl⟩)) fun n => ?_
    refine ((h.kn n).mono (by simp [touch_sync_acq])).weak (same_mem rfl n) ?_ (fun w' u hu _ => List.mem_append_left _ hu) (fun g pc he => .inl he)
      (fun k hk => ⟨rfl, hk⟩) id (fun _ => id)
    intro u hu _
    refine .inl ?_
    simp only [unwritten, hTasks, hq, List.mem_append, List.filterMap_append, List.mem_cons, List.mem_filterMap, List.filterMap_cons, List.filterMap_nil] at hu ⊢
    simp at hu
    simp
    tauto
  | @write j w t M hj hp hM hi =>
    have hwg := ht.wg_pos (busy_mem hj) hM hi.1
    have hf : M.once = .fresh := by
      by_contra hne; have := (hsi.mix _ _ hM).wg hne; omega
    have hmem := List.mem_of_getElem? hj
    have htu : t ∈ unwritten s := by
      simp only [unwritten, List.mem_append, List.mem_filterMap]
      exact .inr ⟨_, hmem, by simp⟩
    have hcast : ((t.idx.toNat : Nat) : Int) = t.idx := Int.toNat_of_nonneg hi.1
    have hnone : ∀ (i : Nat) a, tr[i]? = some a → ¬ (a.op = .read (.slot t.mix t.idx.toNat) ∨ a.op = .write (.slot t.mix t.idx.toNat)) := by
      intro i a ha hop
      obtain ⟨k, h1, -, h3, -⟩ := (h.kn t.mix).fresh M hM hf i a ha ⟨.slot t.mix t.idx.toNat, (show t.mix = t.mix from rfl), hop⟩
      have : t.idx.toNat = k := by
        rcases h1 with h1 | h1 <;> rcases hop with hop | hop <;> rw [h1] at hop <;> cases hop <;> rfl
      exact h3 t htu rfl (by omega)
    refine h.unguarded rfl ?_ ?_ fun n => ?_
    · intro e he l hl
      simp at he; subst he
      refine ⟨by simp, ?_⟩
      rintro h1; cases h1; cases hl
    · refine h.rf.snoc fun i a ha hcf => ?_
      obtain ⟨l, hcf⟩ := hcf
      exfalso
      refine hnone i a ha ?_
      rcases hcf with ⟨h1, h2 | h2⟩ | ⟨h1, h2⟩ <;> cases h2
      · exact .inr h1
      · exact .inl h1
    · by_cases hn : n = t.mix
      · subst hn
        have hno : ∀ (N : Mem), (if t.mix = t.mix then some { M with outputs := M.outputs.set t.idx.toNat (Mixer.resultOf env t.input) } else s.mixes t.mix) = some N →
            N.once = .fresh ∧ N.shuffleWait = 1 ∧ N.totalWorkload = M.totalWorkload := by
          intro N hN; rw [if_pos rfl] at hN; cases hN; exact ⟨hf, (hsi.mix _ _ hM).fresh hf, rfl⟩
        have hsh : ∀ g pc, (g, t.mix, pc) ∈ s.shufs → pc = .start := by
          intro g pc he
          obtain ⟨M', hM', hok⟩ := hsi.ok _ _ _ he
          rw [hM] at hM'; cases hM'
          cases pc <;> simp_all [ShufOk]
        have hdone : ∀ N, s.mixes t.mix = some N → N.once ≠ .done := by
          intro N hN; rw [hM] at hN; cases hN; simp [hf]
        have hout : ¬ t.mix ∈ s.received ++ s.output := by
          intro hm
          obtain ⟨N, hN, hd, -⟩ := hsi.out _ hm
          exact hdone N hN hd
        refine ⟨?_, ?_, ?_, ?_, ?_, ?_, ?_, ?_, ?_, ?_, ?_, ?_, ?_⟩
        · intro N hN _ i a ha hta
          rw [(hno N hN).2.2]
          have hun : ∀ u ∈ unwritten ({ s.set t.mix { M with outputs := M.outputs.set t.idx.toNat (Mixer.resultOf env t.input) } with busy := s.busy.set j (w, t, true) } : State),
              u.mix = t.mix → u ∈ unwritten s ∧ u.idx ≠ t.idx := by
            intro u hu hum
            have hpw := ht.nd
            have hp := Mixer.perm_eraseIdx s.busy j _ hj
            have hp' : (tasks s).Perm (t :: (hTasks s ++ s.queue ++ (s.busy.eraseIdx j).map (·.2.1))) := by
              have := hp.map (fun e => e.2.1)
              exact (List.Perm.append_left _ this).trans List.perm_middle
            have hpw := (List.pairwise_cons.1 (hp'.pairwise hpw (fun hxy e => (hxy e.symm).symm))).1
            have hset := Mixer.perm_eraseIdx (s.busy.set j (w, t, true)) j (w, t, true) (by
              have := (List.getElem?_eq_some_iff.1 hj).1
              simp [this])
            rw [List.eraseIdx_set_eq] at hset
            simp only [unwritten, List.mem_append, List.mem_filterMap] at hu
            have hcase : u ∈ hTasks s ++ s.queue ∨ ∃ e ∈ s.busy.eraseIdx j, e.2.2 = false ∧ e.2.1 = u := by
              rcases hu with hu | ⟨e, he, hu⟩
              · exact .inl (List.mem_append.2 hu)
              · rcases List.mem_cons.1 (hset.mem_iff.1 he) with rfl | he
                · simp at hu
                · right; refine ⟨e, he, ?_⟩
                  split at hu <;> simp_all
            refine ⟨?_, ?_⟩
            · simp only [unwritten, List.mem_append, List.mem_filterMap]
              rcases hcase with hu | ⟨e, he, h1, h2⟩
              · exact .inl (List.mem_append.1 hu)
              · exact .inr ⟨e, List.mem_of_mem_eraseIdx he, by rw [h1, h2]; simp⟩
            · have : u ∈ hTasks s ++ s.queue ++ (s.busy.eraseIdx j).map (·.2.1) := by
                rcases hcase with hu | ⟨e, he, h1, h2⟩
                · exact List.mem_append_left _ hu
                · exact List.mem_append_right _ (List.mem_map.2 ⟨e, he, h2⟩)
              exact (hpw u this hum.symm).symm
          have hb1 : (w, t, true) ∈ s.busy.set j (w, t, true) := by
            have := (List.getElem?_eq_some_iff.1 hj).1
            exact List.mem_iff_getElem?.2 ⟨j, by simp [this]⟩
          rcases get_snoc ha with ⟨rfl, rfl⟩ | ⟨_, ha⟩
          · refine ⟨t.idx.toNat, .inr rfl, ?_, ?_, .inl ⟨w, t, hb1, rfl, Known.self tr ⟨.worker w, _⟩⟩⟩
            · obtain ⟨M', hM', hl⟩ := ht.low t (busy_mem hj)
              rw [hM] at hM'; cases hM'; omega
            · intro u hu hum; rw [hcast]; exact (hun u hu hum).2
          · obtain ⟨k, h1, h2, h3, h4⟩ := (h.kn t.mix).fresh M hM hf i a ha hta
            refine ⟨k, h1, h2, fun u hu hum => h3 u (hun u hu hum).1 hum, ?_⟩
            rcases h4 with ⟨w', t', a1, b1, c1⟩ | h4
            · refine .inl ⟨w', t', ?_, b1, c1.mono _⟩
              obtain ⟨i', hi'⟩ := List.mem_iff_getElem?.1 a1
              refine List.mem_iff_getElem?.2 ⟨i', ?_⟩
              rw [List.getElem?_set, if_neg]
              · exact hi'
              · rintro rfl; rw [hj] at hi'; cases hi'
            · exact .inr (h4.mono _)
        · intro N g hN he hfr
          cases hsh _ _ he
        · intro g o he; cases hsh _ _ he
        · intro g o p w' i he; cases hsh _ _ he
        · intro g he; cases hsh _ _ he
        · intro g he; cases hsh _ _ he
        · intro g he; cases hsh _ _ he
        · intro g he; cases hsh _ _ he
        · intro N hN h0; have := (hno N hN).2.1; omega
        · intro N hN h0; have := (hno N hN).1; rw [h0] at this; cases this
        · intro k hk; exact absurd (List.mem_append_right _ (List.mem_of_getElem? hk)) hout
        · intro hr; exact absurd (List.mem_append_left _ hr) hout
        · intro k hk
          obtain ⟨N, hN, hg⟩ := hsi.get _ _ (List.mem_of_getElem? hk)
          rw [hM] at hN; cases hN
          have := not_fresh_of_sw hsi hM hg
          omega
      · refine ((h.kn n).mono ?_).weak ?_ ?_ ?_ (fun g pc he => .inl he) (fun k hk => ⟨rfl, hk⟩) id (fun _ => id)
        · intro e he
          simp at he; subst he
          rintro ⟨l, ho, h1 | h1⟩ <;> cases h1
          exact hn ho.symm
        · exact set_mem (M1 := { M with outputs := M.outputs.set t.idx.toNat (Mixer.resultOf env t.input) }) hM rfl rfl (Int.le_refl _) n
        · intro u hu _
          refine .inl ?_
          simp only [unwritten, List.mem_append, List.mem_filterMap] at hu ⊢
          rcases hu with hu | ⟨e, he, hu⟩
          · exact .inl hu
          · rcases List.mem_or_eq_of_mem_set he with he | rfl
            · exact .inr ⟨e, he, hu⟩
            · simp at hu
        · intro w' u hu hun
          obtain ⟨i', hi'⟩ := List.mem_iff_getElem?.1 hu
          refine List.mem_iff_getElem?.2 ⟨i', ?_⟩
          show (s.busy.set j (w, t, true))[i']? = _
          rw [List.getElem?_set, if_neg]
          · exact hi'
          · rintro rfl; rw [hj] at hi'; cases hi'
  | @done j w t M hj hM hg =>
    have hmem := List.mem_of_getElem? hj
    refine h.unguarded rfl (by simp) (h.rf.snoc_sync (.inl ⟨_, rfl⟩)) fun n => ?_
    have hkeep : ∀ w' u, (w', u, true) ∈ s.busy → u.mix ≠ t.mix → (w', u, true) ∈ s.busy.eraseIdx j := by
      intro w' u hu hne
      have hp := Mixer.perm_eraseIdx s.busy j _ hj
      rcases List.mem_cons.1 (hp.mem_iff.1 hu) with e | hu
      · cases e; exact absurd rfl hne
      · exact hu
    have hun : ∀ u ∈ unwritten ({ s.set t.mix { M with wg := M.wg - 1 } with busy := s.busy.eraseIdx j } : State), u ∈ unwritten s := by
      intro u hu
      simp only [unwritten, List.mem_append, List.mem_filterMap] at hu ⊢
      rcases hu with hu | ⟨e, he, hu⟩
      · exact .inl hu
      · exact .inr ⟨e, List.mem_of_mem_eraseIdx he, hu⟩
    have hmo := (h.kn n).mono (evs := [⟨.worker w, .release (.wg t.mix)⟩]) (by simp [touch_sync_rel])
    by_cases hn : n = t.mix
    · subst hn
      have hno : ∀ N : Mem, (s.set t.mix { M with wg := M.wg - 1 }).mixes t.mix = some N → N = { M with wg := M.wg - 1 } := by
        intro N hN; rw [set_mixes, if_pos rfl] at hN; cases hN; rfl
      refine { hmo with fresh := ?_, enter := ?_, sw := ?_, done := ?_ }
      · intro N hN hf i a ha hta
        cases hno N hN
        rcases get_snoc ha with ⟨rfl, rfl⟩ | ⟨_, ha⟩
        · exact absurd hta touch_sync_rel
        · obtain ⟨k, h1, h2, h3, h4⟩ := (h.kn t.mix).fresh M hM hf i a ha hta
          refine ⟨k, h1, h2, fun u hu => h3 u (hun u hu), ?_⟩
          rcases h4 with ⟨w', t', a1, b1, c1⟩ | h4
          · by_cases hw : w' = w
            · subst hw; exact .inr (c1.release rfl)
            · refine .inl ⟨w', t', ?_, b1, c1.mono _⟩
              have hp := Mixer.perm_eraseIdx s.busy j _ hj
              rcases List.mem_cons.1 (hp.mem_iff.1 a1) with e | hu
              · cases e; exact absurd rfl hw
              · exact hu
          · exact .inr (h4.mono _)
      · intro N g hN he hf
        cases hno N hN
        exact hmo.enter M g hM he hf
      · intro N hN hsw; cases hno N hN; exact hmo.sw M hM hsw
      · intro N hN hd; cases hno N hN; exact hmo.done M hM hd
    · refine hmo.weak ?_ (fun u hu _ => .inl (hun u hu)) (fun w' u hu hum => hkeep w' u hu (by rw [hum]; exact hn)) (fun g pc he => .inl he)
        (fun k hk => ⟨rfl, hk⟩) id (fun _ => id)
      exact set_mem (M1 := { M with wg := M.wg - 1 }) hM rfl rfl (Int.le_refl _) n

end Resmix.MixerFine
