import Mathlib.Data.List.Perm.Basic
import Mathlib.Data.List.Nodup
import Verif.Model.EccPool
import Verif.Props.Ecc
set_option autoImplicit false
/-
C92: concurrent use of an erasure coder. Many goroutines call AuthEncode and AuthReconstruct of one coder at the same time; the calls share two task queues and a
pool of workers (Model/EccPool). Here: what each call returns is what Model/Ecc says (so C40 and C41 apply to it), and every call returns.
-/
namespace Resmix.Ecc.EccPool
open Resmix.Ecc

/-- `r` is what the call `j` may return according to C40/C41's `AuthEncode` / `AuthReconstruct`; `stopped`: Stop has been called. -/
def Result (C : RS) (stopped : Bool) : Job → Go Out → Prop
  | .encode data, r => ∃ res, AuthEncode C stopped data res ∧ r = res.map .shards
  | .decode shards dataSize, r => ∃ res, AuthReconstruct C stopped shards dataSize res ∧ r = res.map .data

def inCall (s : State) (t : Task) : Nat := match s.calls[t.call]? with
  | some c => c.received.count t.chunk + c.chan.count t.chunk
  | none => 0

def expected (s : State) (t : Task) : Nat := match s.calls[t.call]? with
  | some c => if t.chunk < c.next then 1 else 0
  | none => 0

/-- What holds of every call. -/
structure CallOk (C : RS) (stopped : Bool) (c : Call) : Prop where
  next : c.next ≤ numChunks
  recv : c.received ≠ [] → c.next = numChunks
  wait : c.ret = none → outcome C c.job c.received = .ok none
  long : ∀ j < c.next, c.job.short j = false
  res : ∀ r, c.ret = some r → Result C stopped c.job r

structure Inv (C : RS) (n cap : Nat) (s : State) : Prop where
  cnt : ∀ t, (s.queue false).count t + (s.queue true).count t + s.workers.count (.busy t) + inCall s t = expected s t
  call : ∀ c ∈ s.calls, CallOk C s.stopped c
  exited : .exited ∈ s.workers → s.stopped = true
  len : s.workers.length = n

theorem outcome_nil (C : RS) (j : Job) : outcome C j [] = .ok none := by
  cases j <;> simp [outcome, numChunks] <;> rfl

theorem foldlM_err {β γ : Type} {f : β → γ → Go β} {a b : List γ} {x : β} {e : Fail} (h : a.foldlM f x = .error e) :
    (a ++ b).foldlM f x = .error e := by
  rw [List.foldlM_append, h]; rfl

/-- A list of distinct chunk numbers can be completed. -/
theorem complete {l : List Nat} {n : Nat} (h1 : l.Nodup) (h2 : ∀ i ∈ l, i < n) : ∃ m, (l ++ m).Perm (List.range n) := by
  refine ⟨(List.range n).filter (· ∉ l), ?_⟩
  rw [List.perm_ext_iff_of_nodup]
  · intro a
    simp only [List.mem_append, List.mem_filter, List.mem_range, decide_eq_true_eq]
    constructor
    · rintro (h | h)
      · exact h2 a h
      · exact h.1
    · intro h
      by_cases ha : a ∈ l
      · exact Or.inl ha
      · exact Or.inr ⟨h, ha⟩
  · rw [List.nodup_append]
    refine ⟨h1, List.nodup_range.filter _, ?_⟩
    intro a ha b hb hab
    subst hab
    simp at hb
    exact hb.2 ha
  · exact List.nodup_range

theorem full_perm {l : List Nat} {n : Nat} (h1 : l.Nodup) (h2 : ∀ i ∈ l, i < n) (h3 : l.length = n) : l.Perm (List.range n) := by
  obtain ⟨m, hm⟩ := complete h1 h2
  have := hm.length_eq
  simp at this
  have : m = [] := List.length_eq_zero_iff.1 (by omega)
  subst this
  simpa using hm

/-- A call that has received the responses `order`, and is done, returns what Model/Ecc says. -/
theorem outcome_res {C : RS} {stopped : Bool} {j : Job} {order : List Nat} (h1 : order.Nodup) (h2 : ∀ i ∈ order, i < numChunks)
    (hl : ∀ i < numChunks, j.short i = false) :
    (∀ e, outcome C j order = .error e → Result C stopped j (.error e)) ∧ ∀ o, outcome C j order = .ok (some o) → Result C stopped j (.ok o) := by
  obtain ⟨m, hm⟩ := complete h1 h2
  cases j with
  | encode data =>
    simp only [outcome, Result, AuthEncode, authEncodeIn]
    constructor
    · intro e he
      cases hf : order.foldlM (encodeArrival C (data ++ List.replicate numChunks 0)) (List.replicate numChunks []) with
      | ok acc => rw [hf] at he; simp [Except.map] at he
      | error e' =>
        rw [hf] at he; simp [Except.map] at he; subst he
        exact ⟨.error e', Or.inr ⟨_, hm, (foldlM_err hf).symm⟩, rfl⟩
    · intro o he
      cases hf : order.foldlM (encodeArrival C (data ++ List.replicate numChunks 0)) (List.replicate numChunks []) with
      | error e' => rw [hf] at he; simp [Except.map] at he
      | ok acc =>
        rw [hf] at he; simp only [Except.map, Except.ok.injEq] at he
        split at he
        · next hlen =>
          injection he with he; subst he
          exact ⟨.ok acc, Or.inr ⟨order, full_perm h1 h2 hlen, hf.symm⟩, rfl⟩
        · cases he
  | decode shards size =>
    have hs : ¬ shards.length < numChunks := by
      have := hl (numChunks - 1) (by decide)
      have := of_decide_eq_false this
      unfold numChunks at *
      omega
    simp only [outcome, Result, AuthReconstruct, authReconstructIn, if_neg hs]
    constructor
    · intro e he
      cases hf : order.foldlM (decodeArrival C shards (size + numChunks)) (List.replicate (size + numChunks) 0) with
      | ok acc => rw [hf] at he; simp [Except.map] at he
      | error e' =>
        rw [hf] at he; simp [Except.map] at he; subst he
        exact ⟨.error e', Or.inr ⟨_, hm, by rw [foldlM_err hf]; rfl⟩, rfl⟩
    · intro o he
      cases hf : order.foldlM (decodeArrival C shards (size + numChunks)) (List.replicate (size + numChunks) 0) with
      | error e' => rw [hf] at he; simp [Except.map] at he
      | ok acc =>
        rw [hf] at he; simp only [Except.map, Except.ok.injEq] at he
        split at he
        · next hlen =>
          injection he with he; subst he
          exact ⟨.ok _, Or.inr ⟨order, full_perm h1 h2 hlen, by rw [hf]; rfl⟩, rfl⟩
        · cases he

theorem Result.stop {C : RS} {j : Job} {b : Bool} {r : Go Out} (h : Result C b j r) : Result C true j r := by
  cases j with
  | encode d =>
    obtain ⟨res, h1, h2⟩ := h
    exact ⟨res, by rcases h1 with ⟨_, h⟩ | h; exacts [Or.inl ⟨rfl, h⟩, Or.inr h], h2⟩
  | decode d n =>
    obtain ⟨res, h1, h2⟩ := h
    exact ⟨res, by rcases h1 with ⟨_, h⟩ | h; exacts [Or.inl ⟨rfl, h⟩, Or.inr h], h2⟩

theorem Result.stopped (C : RS) (j : Job) : Result C true j (.error stoppedErr) := by
  cases j with
  | encode d => exact ⟨_, Or.inl ⟨rfl, rfl⟩, rfl⟩
  | decode d n => exact ⟨_, Or.inl ⟨rfl, rfl⟩, rfl⟩

theorem Result.short {C : RS} {b : Bool} {j : Job} {n : Nat} (h : j.short n = true) (hn : n < numChunks) : Result C b j (.error .panic) := by
  cases j with
  | encode d => simp [Job.short] at h
  | decode d m =>
    simp [Job.short] at h
    exact ⟨.error .panic, Or.inr ⟨List.range numChunks, List.Perm.refl _, by rw [authReconstructIn, if_pos (by omega)]⟩, rfl⟩

theorem inv_init (C : RS) (n cap : Nat) : Inv C n cap (init n) := by
  refine ⟨?_, by simp [init], by simp [init], by simp [init]⟩
  intro t
  simp [init, inCall, expected, List.count_replicate]

/-- The responses a call has or will get are those of its tasks, once each. -/
theorem Inv.received {C : RS} {n cap : Nat} {s : State} (h : Inv C n cap s) {i : Nat} {c : Call} (hc : s.calls[i]? = some c) :
    (c.received ++ c.chan).Nodup ∧ ∀ k ∈ c.received ++ c.chan, k < c.next := by
  have hcnt : ∀ k, (c.received ++ c.chan).count k ≤ if k < c.next then 1 else 0 := by
    intro k
    have := h.cnt ⟨i, k⟩
    simp only [inCall, expected, hc] at this
    rw [List.count_append]
    omega
  constructor
  · rw [List.nodup_iff_count_le_one]
    intro k
    have := hcnt k
    split at this <;> omega
  · intro k hk
    have h1 := List.count_pos_iff.2 hk
    have h2 := hcnt k
    split at h2
    · assumption
    · omega

theorem getElem?_snoc {β : Type} (l : List β) (a : β) (i : Nat) : (l ++ [a])[i]? = if i = l.length then some a else l[i]? := by
  rcases Nat.lt_trichotomy i l.length with hi | hi | hi
  · rw [List.getElem?_append_left hi, if_neg (by omega)]
  · subst hi; simp
  · rw [if_neg (by omega), List.getElem?_eq_none (by simp; omega), List.getElem?_eq_none (by omega)]

theorem getElem?_set_some {β : Type} {l : List β} {i : Nat} {a b : β} (h : l[i]? = some a) (j : Nat) : (l.set i b)[j]? = if j = i then some b else l[j]? := by
  have := (List.getElem?_eq_some_iff.1 h).1
  by_cases hj : j = i
  · subst hj; simp [this]
  · rw [if_neg hj, List.getElem?_set_ne (Ne.symm hj)]

theorem count_set_some {β : Type} [DecidableEq β] {l : List β} {i : Nat} {a : β} (h : l[i]? = some a) (b x : β) :
    (l.set i b).count x + (if a = x then 1 else 0) = l.count x + if b = x then 1 else 0 := by
  induction l generalizing i with
  | nil => simp at h
  | cons y l ih =>
    cases i with
    | zero =>
      simp at h; subst h
      simp only [List.set_cons_zero, List.count_cons, beq_iff_eq]
      omega
    | succ i =>
      simp only [List.getElem?_cons_succ] at h
      have := ih h
      simp only [List.set_cons_succ, List.count_cons]
      omega

set_option maxHeartbeats 1000000 in
theorem inv_step {C : RS} {n cap : Nat} {s s' : State} {e : Ev} (h : Inv C n cap s) (hs : step C cap s e = some s') : Inv C n cap s' := by
  cases e with
  | call j =>
    simp only [step, Option.some.injEq] at hs; subst hs
    refine ⟨?_, ?_, h.exited, h.len⟩
    · intro t
      have := h.cnt t
      simp only [inCall, expected] at this ⊢
      rw [getElem?_snoc]
      by_cases ht : t.call = s.calls.length
      · rw [List.getElem?_eq_none (by omega)] at this
        simpa [ht] using this
      · simpa [ht] using this
    · intro c hc
      rcases List.mem_append.1 hc with hc | hc
      · exact h.call c hc
      · simp at hc; subst hc
        exact ⟨by simp, by simp, fun _ => outcome_nil C j, by simp, by simp⟩
  | submit i =>
    simp only [step] at hs
    split at hs
    · next c hc =>
      have hok := h.call c (List.mem_of_getElem? hc)
      split at hs
      · next hcond =>
        obtain ⟨hret, hnext⟩ := hcond
        split at hs
        · next hsh =>
          injection hs with hs; subst hs
          refine ⟨?_, ?_, h.exited, h.len⟩
          · intro t
            have := h.cnt t
            simp only [inCall, expected, State.setCall, getElem?_set_some hc] at this ⊢
            by_cases ht : t.call = i
            · subst ht; simpa [hc] using this
            · simpa [ht] using this
          · intro c' hc'
            rcases List.mem_or_eq_of_mem_set hc' with hc' | rfl
            · exact h.call c' hc'
            · refine ⟨hok.next, hok.recv, by simp, hok.long, ?_⟩
              intro r hr
              simp at hr; subst hr
              exact Result.short hsh hnext
        · next hsh =>
          split at hs
          · injection hs with hs; subst hs
            refine ⟨?_, ?_, h.exited, h.len⟩
            · intro t
              have := h.cnt t
              have hq : ∀ b, (if b = c.job.decodes then s.queue c.job.decodes ++ [⟨i, c.next⟩] else s.queue b).count t =
                  (s.queue b).count t + if b = c.job.decodes ∧ t = ⟨i, c.next⟩ then 1 else 0 := by
                intro b
                by_cases hb : b = c.job.decodes
                · subst hb
                  by_cases ht : t = ⟨i, c.next⟩
                  · simp [ht]
                  · have ht' : (⟨i, c.next⟩ : Task) ≠ t := fun h => ht h.symm
                    simp [ht, ht', List.count_append]
                · simp [hb]
              simp only [inCall, expected, State.setCall, State.setQueue, getElem?_set_some hc] at this ⊢
              rw [hq, hq]
              by_cases ht : t.call = i
              · subst ht
                simp only [hc, if_pos] at this ⊢
                have ht2 : t = ⟨t.call, c.next⟩ ↔ t.chunk = c.next := by
                  constructor
                  · intro h; rw [h]
                  · intro h; cases t; simp_all
                simp only [ht2]
                cases c.job.decodes <;> simp <;> split at this <;> split <;> split <;> omega
              · have ht2 : t ≠ ⟨i, c.next⟩ := fun h => ht (by rw [h])
                simpa [ht, ht2] using this
            · intro c' hc'
              rcases List.mem_or_eq_of_mem_set hc' with hc' | rfl
              · exact h.call c' hc'
              · refine ⟨by simpa using hnext, ?_, hok.wait, ?_, hok.res⟩
                · intro hr; have := hok.recv hr; omega
                · intro j hj
                  simp only at hj
                  rcases Nat.lt_succ_iff_lt_or_eq.1 hj with hj | rfl
                  · exact hok.long j hj
                  · simpa using hsh
          · cases hs
      · cases hs
    · cases hs
  | take w q =>
    simp only [step] at hs
    split at hs
    · next t rest hw hq =>
      injection hs with hs; subst hs
      refine ⟨?_, h.call, ?_, by simp [h.len]⟩
      · intro u
        have := h.cnt u
        have hset := count_set_some hw (.busy t) (.busy u)
        simp only [inCall, expected, State.setQueue] at this ⊢
        cases q <;> rw [hq, List.count_cons] at this <;> simp at hset this ⊢ <;> omega
      · intro hx
        rcases List.mem_or_eq_of_mem_set hx with hx | hx
        · exact h.exited hx
        · cases hx
    · cases hs
  | reply w =>
    simp only [step] at hs
    split at hs
    · next t hw =>
      split at hs
      · next c hc =>
        have hok := h.call c (List.mem_of_getElem? hc)
        split at hs
        · injection hs with hs; subst hs
          refine ⟨?_, ?_, ?_, by simp [State.setCall, h.len]⟩
          · intro u
            have := h.cnt u
            have hset := count_set_some hw .idle (.busy u)
            simp only [inCall, expected, State.setCall, getElem?_set_some hc] at this ⊢
            simp only [Worker.busy.injEq, reduceCtorEq, if_false] at hset
            by_cases hu : u.call = t.call
            · rw [hu] at this ⊢
              simp only [hc, if_pos, List.count_append, List.count_singleton, beq_iff_eq] at this ⊢
              have ht2 : t = u ↔ t.chunk = u.chunk := by
                constructor
                · intro h; rw [h]
                · intro h; cases t; cases u; simp_all
              simp only [ht2] at hset
              omega
            · have : t ≠ u := fun h => hu (by rw [h])
              simp only [if_neg hu, if_neg this] at hset ⊢
              omega
          · intro c' hc'
            rcases List.mem_or_eq_of_mem_set hc' with hc' | rfl
            · exact h.call c' hc'
            · exact ⟨hok.next, hok.recv, hok.wait, hok.long, hok.res⟩
          · intro hx
            rcases List.mem_or_eq_of_mem_set hx with hx | hx
            · exact h.exited hx
            · cases hx
        · cases hs
      · cases hs
    · cases hs
  | receive i =>
    simp only [step] at hs
    split at hs
    · next c hc =>
      have hok := h.call c (List.mem_of_getElem? hc)
      have hnd := h.received hc
      split at hs
      · next hcond =>
        obtain ⟨hret, hnext⟩ := hcond
        split at hs
        · next k rest hch =>
          injection hs with hs; subst hs
          refine ⟨?_, ?_, h.exited, h.len⟩
          · intro t
            have := h.cnt t
            simp only [inCall, expected, State.setCall, getElem?_set_some hc] at this ⊢
            by_cases ht : t.call = i
            · subst ht
              simp only [hc, if_pos, Call.receive, hch, List.count_append, List.count_cons, List.count_nil] at this ⊢
              omega
            · simpa [ht] using this
          · intro c' hc'
            rcases List.mem_or_eq_of_mem_set hc' with hc' | rfl
            · exact h.call c' hc'
            · rw [hch, hnext] at hnd
              have hr := outcome_res (C := C) (stopped := s.stopped) (j := c.job) (order := c.received ++ [k])
                (by have := hnd.1; rw [← List.singleton_append, ← List.append_assoc] at this; exact (List.nodup_append.1 this).1)
                (fun j hj => hnd.2 j (by rw [← List.singleton_append, ← List.append_assoc]; exact List.mem_append_left _ hj))
                (by rw [← hnext]; exact hok.long)
              refine ⟨hok.next, fun _ => hnext, ?_, hok.long, ?_⟩
              · simp only [Call.receive]
                intro hx
                split at hx
                · cases hx
                · assumption
                · cases hx
              · intro r hx
                simp only [Call.receive] at hx ⊢
                split at hx
                · next e he => injection hx with hx; subst hx; exact hr.1 e he
                · cases hx
                · next o ho => injection hx with hx; subst hx; exact hr.2 o ho
        · cases hs
      · cases hs
    · cases hs
  | stop =>
    simp only [step, Option.some.injEq] at hs; subst hs
    refine ⟨h.cnt, ?_, fun _ => rfl, h.len⟩
    intro c hc
    obtain ⟨h1, h2, h3, h4, h5⟩ := h.call c hc
    exact ⟨h1, h2, h3, h4, fun r hr => (h5 r hr).stop⟩
  | abort i =>
    simp only [step] at hs
    split at hs
    · next c hc =>
      have hok := h.call c (List.mem_of_getElem? hc)
      split at hs
      · next hcond =>
        injection hs with hs; subst hs
        refine ⟨?_, ?_, h.exited, h.len⟩
        · intro t
          have := h.cnt t
          simp only [inCall, expected, State.setCall, getElem?_set_some hc] at this ⊢
          by_cases ht : t.call = i
          · subst ht; simpa [hc] using this
          · simpa [ht] using this
        · intro c' hc'
          rcases List.mem_or_eq_of_mem_set hc' with hc' | rfl
          · exact h.call c' hc'
          · refine ⟨hok.next, hok.recv, by simp, hok.long, ?_⟩
            intro r hr
            simp at hr; subst hr
            simp only [State.setCall, hcond.2]
            exact Result.stopped C _
      · cases hs
    · cases hs
  | exit w =>
    simp only [step] at hs
    split at hs
    · next hw =>
      split at hs
      · next hst =>
        injection hs with hs; subst hs
        refine ⟨?_, h.call, fun _ => hst, by simp [h.len]⟩
        intro u
        have := h.cnt u
        have hset := count_set_some hw .exited (.busy u)
        simp only [inCall, expected] at this ⊢
        simp at hset
        omega
      · cases hs
    · cases hs

theorem inv_run {C : RS} {n cap : Nat} (evs : List Ev) {s s' : State} (h : Inv C n cap s) (hs : run C cap s evs = some s') : Inv C n cap s' := by
  induction evs generalizing s with
  | nil => simp only [run, Option.some.injEq] at hs; subst hs; exact h
  | cons e evs ih =>
    rw [run] at hs
    split at hs
    · cases hs
    · next s1 h1 => exact ih (inv_step h h1) hs

/-- The calls an execution made, in order. -/
def made (evs : List Ev) : List Job := evs.filterMap fun e => match e with | .call j => some j | _ => none

/-- A step the coder's goroutines and the calls make themselves. -/
def Own : Ev → Bool
  | .call _ => false
  | .stop => false
  | _ => true

/-- Nothing can go on. -/
def AtRest (C : RS) (cap : Nat) (s : State) : Prop := ∀ e, Own e = true → step C cap s e = none

theorem jobs_step {C : RS} {cap : Nat} {s s' : State} {e : Ev} (hs : step C cap s e = some s') :
    s'.calls.map (·.job) = s.calls.map (·.job) ++ made [e] := by
  have hset : ∀ (i : Nat) (c c' : Call), s.calls[i]? = some c → c'.job = c.job → (s.calls.set i c').map (·.job) = s.calls.map (·.job) := by
    intro i c c' hc hj
    rw [List.map_set, hj]
    apply List.ext_getElem? 
    intro k
    have hc' : (s.calls.map (·.job))[i]? = some c.job := by simp [hc]
    rw [getElem?_set_some hc']
    split
    · next h => subst h; exact hc'.symm
    · rfl
  cases e with
  | call j => simp only [step, Option.some.injEq] at hs; subst hs; simp [made]
  | stop => simp only [step, Option.some.injEq] at hs; subst hs; simp [made]
  | submit i =>
    simp only [step] at hs
    (repeat' split at hs) <;> cases hs <;> simp only [made, State.setCall, State.setQueue, List.filterMap_cons, List.filterMap_nil, List.append_nil] <;>
      (have hh := ‹s.calls[_]? = some _›; exact hset _ _ _ hh rfl)
  | take w q => 
    simp only [step] at hs
    (repeat' split at hs) <;> cases hs <;> simp [made, State.setQueue]
  | reply w =>
    simp only [step] at hs
    (repeat' split at hs) <;> cases hs <;> simp only [made, State.setCall, State.setQueue, List.filterMap_cons, List.filterMap_nil, List.append_nil] <;>
      (have hh := ‹s.calls[_]? = some _›; exact hset _ _ _ hh rfl)
  | receive w =>
    simp only [step] at hs
    (repeat' split at hs) <;> cases hs <;> simp only [made, State.setCall, State.setQueue, List.filterMap_cons, List.filterMap_nil, List.append_nil] <;>
      (have hh := ‹s.calls[_]? = some _›; exact hset _ _ _ hh rfl)
  | abort w =>
    simp only [step] at hs
    (repeat' split at hs) <;> cases hs <;> simp only [made, State.setCall, State.setQueue, List.filterMap_cons, List.filterMap_nil, List.append_nil] <;>
      (have hh := ‹s.calls[_]? = some _›; exact hset _ _ _ hh rfl)
  | exit w =>
    simp only [step] at hs
    (repeat' split at hs) <;> cases hs <;> simp [made]

theorem jobs_run {C : RS} {cap : Nat} (evs : List Ev) {s s' : State} (hs : run C cap s evs = some s') :
    s'.calls.map (·.job) = s.calls.map (·.job) ++ made evs := by
  induction evs generalizing s with
  | nil => simp only [run, Option.some.injEq] at hs; subst hs; simp [made]
  | cons e evs ih =>
    rw [run] at hs
    split at hs
    · cases hs
    · next s1 h1 =>
      rw [ih hs, jobs_step h1, List.append_assoc]
      simp only [made, ← List.filterMap_append, List.singleton_append]

/-- The work left: 4 for a task not yet submitted, 3 for a queued one, 2 for one being computed, 1 for a response not yet received, 1 for a call that has not
returned, 1 for a worker that has not exited. -/
def callWork (c : Call) : Nat := 4 * (numChunks - c.next) + c.chan.length + if c.ret.isNone then 1 else 0

def workerWork : Worker → Nat
  | .idle => 1
  | .busy _ => 3
  | .exited => 0

def work (s : State) : Nat :=
  (s.calls.map callWork).sum + 3 * ((s.queue false).length + (s.queue true).length) + (s.workers.map workerWork).sum

theorem sum_set {β : Type} (f : β → Nat) (l : List β) (i : Nat) (a b : β) (h : l[i]? = some a) : ((l.set i b).map f).sum + f a = (l.map f).sum + f b := by
  induction l generalizing i with
  | nil => simp at h
  | cons x l ih =>
    cases i with
    | zero => simp at h; subst h; simp; omega
    | succ i =>
      simp only [List.getElem?_cons_succ] at h
      have := ih i h
      simp only [List.set_cons_succ, List.map_cons, List.sum_cons]
      omega

theorem work_step {C : RS} {cap : Nat} {s s' : State} {e : Ev} (hs : step C cap s e = some s') :
    work s' + (if Own e then 1 else 0) ≤ work s + 145 * (made [e]).length := by
  cases e with
  | call j =>
    simp only [step, Option.some.injEq] at hs; subst hs
    simp [made, work, callWork, numChunks, Own]; omega
  | stop => simp only [step, Option.some.injEq] at hs; subst hs; simp [made, work, Own]
  | submit i =>
    simp only [step] at hs
    split at hs
    · next c hc =>
      split at hs
      · next hcond =>
        split at hs
        · injection hs with hs; subst hs
          have := sum_set callWork s.calls i c { c with ret := some (.error .panic) } hc
          simp [work, Own, made, State.setCall, callWork, hcond.1] at this ⊢
          omega
        · split at hs
          · injection hs with hs; subst hs
            have := sum_set callWork s.calls i c { c with next := c.next + 1 } hc
            have h2 := hcond.2
            cases hd : c.job.decodes <;> simp [work, Own, made, State.setCall, State.setQueue, callWork, hcond.1, hd] at this ⊢ <;> omega
          · cases hs
      · cases hs
    · cases hs
  | take w q =>
    simp only [step] at hs
    split at hs
    · next t rest hw hq =>
      injection hs with hs; subst hs
      have := sum_set workerWork s.workers w _ (.busy t) hw
      cases q <;> simp [work, Own, made, State.setQueue, hq, workerWork] at this ⊢ <;> omega
    · cases hs
  | reply w =>
    simp only [step] at hs
    split at hs
    · next t hw =>
      split at hs
      · next c hc =>
        split at hs
        · injection hs with hs; subst hs
          have h1 := sum_set callWork s.calls t.call c { c with chan := c.chan ++ [t.chunk] } hc
          have h2 := sum_set workerWork s.workers w _ .idle hw
          simp [work, Own, made, State.setCall, callWork, workerWork] at h1 h2 ⊢
          omega
        · cases hs
      · cases hs
    · cases hs
  | receive i =>
    simp only [step] at hs
    split at hs
    · next c hc =>
      split at hs
      · next hcond =>
        split at hs
        · next k rest hch =>
          injection hs with hs; subst hs
          have h1 := sum_set callWork s.calls i c (c.receive C k rest) hc
          have h2 : callWork (c.receive C k rest) + 1 ≤ callWork c := by
            have h3 : ∀ x : Option (Go Out), (if x.isNone then 1 else 0) ≤ 1 := by intro x; split <;> simp
            have h4 := h3 (c.receive C k rest).ret
            have h5 : (c.receive C k rest).chan = rest := rfl
            have h6 : (c.receive C k rest).next = c.next := rfl
            simp only [callWork, hch, List.length_cons, hcond.1, h5, h6, if_pos]
            omega
          simp [work, Own, made, State.setCall] at h1 ⊢
          omega
        · cases hs
      · cases hs
    · cases hs
  | abort i =>
    simp only [step] at hs
    split at hs
    · next c hc =>
      split at hs
      · next hcond =>
        injection hs with hs; subst hs
        have := sum_set callWork s.calls i c { c with ret := some (.error stoppedErr) } hc
        simp [work, Own, made, State.setCall, callWork, hcond.1] at this ⊢
        omega
      · cases hs
    · cases hs
  | exit w =>
    simp only [step] at hs
    split at hs
    · next hw =>
      split at hs
      · injection hs with hs; subst hs
        have := sum_set workerWork s.workers w _ .exited hw
        simp [work, Own, made, workerWork] at this ⊢
        omega
      · cases hs
    · cases hs

theorem work_run {C : RS} {cap : Nat} (evs : List Ev) {s s' : State} (hs : run C cap s evs = some s') :
    work s' + evs.countP Own ≤ work s + 145 * (made evs).length := by
  induction evs generalizing s with
  | nil => simp only [run, Option.some.injEq] at hs; subst hs; simp [made]
  | cons e evs ih =>
    rw [run] at hs
    split at hs
    · cases hs
    · next s1 h1 =>
      have h2 := ih hs
      have h3 := work_step h1
      have h4 : (made (e :: evs)).length = (made [e]).length + (made evs).length := by
        rw [← List.length_append]; simp only [made, ← List.filterMap_append, List.singleton_append]
      rw [List.countP_cons]
      omega

/-- A worker that has computed a response can always deliver it. -/
theorem Inv.reply {C : RS} {n cap : Nat} {s : State} (h : Inv C n cap s) {w : Nat} {t : Task} (hw : s.workers[w]? = some (.busy t)) :
    step C cap s (.reply w) ≠ none := by
  have h1 := h.cnt t
  have h2 : 0 < s.workers.count (.busy t) := List.count_pos_iff.2 (List.mem_of_getElem? hw)
  cases hc : s.calls[t.call]? with
  | none => simp only [inCall, expected, hc] at h1; omega
  | some c =>
    have hnd := h.received hc
    have hok := h.call c (List.mem_of_getElem? hc)
    simp only [inCall, expected, hc] at h1
    have hlt : t.chunk < c.next := by
      by_contra hx
      rw [if_neg hx] at h1; omega
    rw [if_pos hlt] at h1
    have hnot : t.chunk ∉ c.chan := by
      intro hx
      have := List.count_pos_iff.2 hx
      omega
    have hlen : (t.chunk :: c.chan).length ≤ c.next := by
      have hsub : (t.chunk :: c.chan).Subperm (List.range c.next) := by
        apply List.Nodup.subperm
        · exact List.nodup_cons.2 ⟨hnot, (List.nodup_append.1 hnd.1).2.1⟩
        · intro a ha
          rw [List.mem_range]
          rcases List.mem_cons.1 ha with rfl | ha
          · exact hlt
          · exact hnd.2 a (List.mem_append_right _ ha)
      simpa using hsub.length_le
    have := hok.next
    simp only [List.length_cons] at hlen
    simp only [step, hw, hc]
    rw [if_pos (by omega)]
    simp

/-- A queued task can be taken, unless all workers are busy. -/
theorem Inv.flow {C : RS} {n cap : Nat} {s : State} (h : Inv C n cap s) (hn : 0 < n) (hst : s.stopped = false) (hr : AtRest C cap s) :
    (∀ q, s.queue q = []) ∧ ∀ t, .busy t ∉ s.workers := by
  have hb : ∀ t, .busy t ∉ s.workers := by
    intro t ht
    obtain ⟨w, hw⟩ := List.mem_iff_getElem?.1 ht
    exact h.reply hw (hr (.reply w) rfl)
  refine ⟨?_, hb⟩
  intro q
  cases hq : s.queue q with
  | nil => rfl
  | cons t rest =>
    exfalso
    have h0 : 0 < s.workers.length := by rw [h.len]; exact hn
    have hw : s.workers[0]? = some s.workers[0] := by simp [h0]
    cases hw0 : s.workers[0] with
    | idle =>
      rw [hw0] at hw
      have := hr (.take 0 q) rfl
      simp [step, hw, hq] at this
    | busy t => exact hb t (by rw [← hw0]; exact List.getElem_mem _)
    | exited =>
      have := h.exited (by rw [← hw0]; exact List.getElem_mem _)
      rw [hst] at this; cases this

/-- When nothing can go on, every call has returned; after Stop, every worker has returned too. -/
theorem Inv.rest {C : RS} {n cap : Nat} {s : State} (h : Inv C n cap s) (hn : 0 < n) (hcap : 0 < cap) (hr : AtRest C cap s) :
    (∀ c ∈ s.calls, c.ret ≠ none) ∧ (s.stopped = true → ∀ w ∈ s.workers, w = .exited) := by
  constructor
  · intro c hmem hret
    obtain ⟨i, hc⟩ := List.mem_iff_getElem?.1 hmem
    have hok := h.call c hmem
    have hst : s.stopped = false := by
      by_contra hx
      have := hr (.abort i) rfl
      simp only [Bool.not_eq_false] at hx
      simp [step, hc, hret, hx] at this
    obtain ⟨hq, hb⟩ := h.flow hn hst hr
    have hnext : c.next = numChunks := by
      by_contra hx
      have hlt : c.next < numChunks := by have := hok.next; omega
      have := hr (.submit i) rfl
      simp only [step, hc] at this
      rw [if_pos ⟨by simp [hret], hlt⟩] at this
      split at this
      · cases this
      · rw [hq, if_pos (by simpa using hcap)] at this
        cases this
    have hch : c.chan = [] := by
      cases hx : c.chan with
      | nil => rfl
      | cons k rest =>
        have := hr (.receive i) rfl
        simp [step, hc, hret, hnext, hx] at this
    have hall : ∀ k < numChunks, c.received.count k = 1 := by
      intro k hk
      have := h.cnt ⟨i, k⟩
      have hb' : s.workers.count (.busy ⟨i, k⟩) = 0 := List.count_eq_zero.2 (hb _)
      simp only [inCall, expected, hc, hq, hb', hch, hnext, if_pos hk, List.count_nil] at this
      omega
    have hnd := h.received hc
    rw [hch, List.append_nil] at hnd
    have hlen : c.received.length = numChunks := by
      have : c.received.Perm (List.range numChunks) := by
        rw [List.perm_ext_iff_of_nodup hnd.1 List.nodup_range]
        intro a
        rw [List.mem_range]
        constructor
        · intro ha; have := hnd.2 a ha; omega
        · intro ha; exact List.count_pos_iff.1 (by rw [hall a ha]; decide)
      simpa using this.length_eq
    have := hok.wait hret
    cases hj : c.job with
    | encode data =>
      rw [hj] at this
      simp only [outcome, hlen, if_pos] at this
      cases hf : c.received.foldlM (encodeArrival C (data ++ List.replicate numChunks 0)) (List.replicate numChunks []) <;> rw [hf] at this <;>
        simp [Except.map] at this
    | decode shards size =>
      rw [hj] at this
      simp only [outcome, hlen, if_pos] at this
      cases hf : c.received.foldlM (decodeArrival C shards (size + numChunks)) (List.replicate (size + numChunks) 0) <;> rw [hf] at this <;>
        simp [Except.map] at this
  · intro hst w hw
    obtain ⟨i, hi⟩ := List.mem_iff_getElem?.1 hw
    cases w with
    | exited => rfl
    | busy t => exact absurd (hr (.reply i) rfl) (h.reply hi)
    | idle =>
      have := hr (.exit i) rfl
      simp [step, hi, hst] at this

/-- C92: in every execution, every call that has returned has the result of a call that is alone (so C40 and C41 hold for it): concurrent calls do not
disturb each other. -/
theorem C92_results (C : RS) (n cap : Nat) (evs : List Ev) (s : State) (hs : run C cap (init n) evs = some s) :
    s.calls.map (·.job) = made evs ∧ ∀ c ∈ s.calls, ∀ r, c.ret = some r → Result C s.stopped c.job r := by
  refine ⟨by simpa [init] using jobs_run evs hs, ?_⟩
  intro c hc
  exact ((inv_run evs (inv_init C n cap) hs).call c hc).res

/-- C92, what this means with C40: what is encoded by one call, whoever else uses the coder, is decoded by another call, whoever else uses the coder, from what
is left after losing up to `C.m` shards of every chunk; unless the coder was stopped. -/
theorem C92_round_trip (C : RS) (data : Bytes) : ∃ shards,
    (∀ n cap evs s, run C cap (init n) evs = some s → ∀ c ∈ s.calls, c.job = .encode data → ∀ r, c.ret = some r →
      r = .ok (.shards shards) ∨ s.stopped = true ∧ r = .error stoppedErr) ∧
    ∀ view, Erasure C.m shards view →
      ∀ n cap evs s, run C cap (init n) evs = some s → ∀ c ∈ s.calls, c.job = .decode view data.length → ∀ r, c.ret = some r →
        r = .ok (.data data) ∨ s.stopped = true ∧ r = .error stoppedErr := by
  obtain ⟨shards, _, h2, _, _, h5⟩ := C40_round_trip C data
  refine ⟨shards, ?_, ?_⟩
  · intro n cap evs s hs c hc hj r hr
    have := (C92_results C n cap evs s hs).2 c hc r hr
    rw [hj] at this
    obtain ⟨res, h, rfl⟩ := this
    rcases h2 _ _ h with rfl | ⟨h', rfl⟩
    · exact Or.inl rfl
    · exact Or.inr ⟨h', rfl⟩
  · intro view hv n cap evs s hs c hc hj r hr
    have := (C92_results C n cap evs s hs).2 c hc r hr
    rw [hj] at this
    obtain ⟨res, h, rfl⟩ := this
    rcases (h5 view hv).2 _ _ h with rfl | ⟨h', rfl⟩
    · exact Or.inl rfl
    · exact Or.inr ⟨h', rfl⟩

/-- C92: the goroutines take at most 145 steps per call (plus one per worker) -/
theorem C92_bounded (C : RS) (n cap : Nat) (evs : List Ev) (s : State) (hs : run C cap (init n) evs = some s) :
    evs.countP Own ≤ 145 * (made evs).length + n := by
  have := work_run evs hs
  simp [work, init, workerWork] at this
  omega

/-- and they stop only when every call has returned and, after Stop, every worker too; a worker never waits to hand over its response. -/
theorem C92_returns (C : RS) (n cap : Nat) (hn : 0 < n) (hcap : 0 < cap) (evs : List Ev) (s : State) (hs : run C cap (init n) evs = some s) :
    (AtRest C cap s → (∀ c ∈ s.calls, c.ret ≠ none) ∧ (s.stopped = true → ∀ w ∈ s.workers, w = .exited)) ∧
    ∀ (w : Nat) t, s.workers[w]? = some (.busy t) → step C cap s (.reply w) ≠ none := by
  have h := inv_run evs (inv_init C n cap) hs
  exact ⟨h.rest hn hcap, fun w t hw => h.reply hw⟩

theorem to_rest (C : RS) (cap : Nat) (k : Nat) (s : State) (hk : work s ≤ k) :
    ∃ evs s', (∀ e ∈ evs, Own e = true) ∧ run C cap s evs = some s' ∧ AtRest C cap s' := by
  induction k generalizing s with
  | zero =>
    refine ⟨[], s, by simp, rfl, ?_⟩
    intro e he
    by_contra hx
    obtain ⟨s1, h1⟩ := Option.ne_none_iff_exists'.1 hx
    have := work_step h1
    rw [if_pos he] at this
    have h0 : (made [e]).length = 0 := by cases e <;> simp_all [made, Own]
    omega
  | succ k ih =>
    by_cases hr : AtRest C cap s
    · exact ⟨[], s, by simp, rfl, hr⟩
    · simp only [AtRest, not_forall] at hr
      obtain ⟨e, he, hx⟩ := hr
      obtain ⟨s1, h1⟩ := Option.ne_none_iff_exists'.1 hx
      have := work_step h1
      rw [if_pos he] at this
      have h0 : (made [e]).length = 0 := by cases e <;> simp_all [made, Own]
      obtain ⟨evs, s', h2, h3, h4⟩ := ih s1 (by omega)
      refine ⟨e :: evs, s', ?_, ?_, h4⟩
      · intro e' he'
        rcases List.mem_cons.1 he' with rfl | he'
        · exact he
        · exact h2 e' he'
      · rw [run, h1]; exact h3

/-- C92: whatever happened so far, the goroutines can finish all calls on their own (by C92_bounded and C92_returns, they do so however they are scheduled). -/
theorem C92_completes (C : RS) (n cap : Nat) (hn : 0 < n) (hcap : 0 < cap) (evs : List Ev) (s : State) (hs : run C cap (init n) evs = some s) :
    ∃ more s', (∀ e ∈ more, Own e = true) ∧ run C cap s more = some s' ∧ ∀ c ∈ s'.calls, c.ret ≠ none := by
  obtain ⟨more, s', h1, h2, h3⟩ := to_rest C cap (work s) s (Nat.le_refl _)
  exact ⟨more, s', h1, h2, ((inv_run more (inv_run evs (inv_init C n cap) hs) h2).rest hn hcap h3).1⟩

/-- Two concurrent calls, and their results when the coder has come to rest without having been stopped. -/
example (C : RS) (data : Bytes) (view : List (List Bytes)) (h : ∀ shards, (∀ res, AuthEncode C false data res ↔ res = .ok shards) → Erasure C.m shards view) :
    ∃ evs s, run C 72 (init 2) (.call (.encode data) :: .call (.decode view data.length) :: evs) = some s ∧ s.stopped = false ∧
      ∃ x y, s.calls.map (·.ret) = [some (.ok (.shards x)), some (.ok (.data y))] ∧ y = data := by
  obtain ⟨shards, h1, _, _, _, h5⟩ := C40_round_trip C data
  obtain ⟨s0, h0⟩ : ∃ s0, run C 72 (init 2) [.call (.encode data), .call (.decode view data.length)] = some s0 := ⟨_, rfl⟩
  obtain ⟨more, s', h2, h3, h4⟩ := C92_completes C 2 72 (by decide) (by decide) _ _ h0
  have hstop : ∀ (l : List Ev) (a b : State), (∀ e ∈ l, Own e = true) → run C 72 a l = some b → b.stopped = a.stopped := by
    intro l
    induction l with
    | nil => intro a b _ h; simp only [run, Option.some.injEq] at h; rw [h]
    | cons e l ih =>
      intro a b hl h
      rw [run] at h
      split at h
      · cases h
      · next a1 ha =>
        rw [ih a1 b (fun e he => hl e (List.mem_cons_of_mem _ he)) h]
        have := hl e List.mem_cons_self
        cases e <;> simp only [Own, Bool.false_eq_true] at this <;> simp only [step] at ha <;>
          (repeat' split at ha) <;> cases ha <;> simp [State.setCall, State.setQueue]
  have hall : run C 72 (init 2) (.call (.encode data) :: .call (.decode view data.length) :: more) = some s' := by
    have : run C 72 (init 2) (.call (.encode data) :: .call (.decode view data.length) :: more) = run C 72 s0 more := by
      simp only [run, step, Option.some.injEq] at h0 ⊢
      rw [← h0]
    rw [this, h3]
  have hst : s'.stopped = false := by
    rw [hstop more s0 s' h2 h3]
    simp only [run, step, Option.some.injEq] at h0
    rw [← h0]; rfl
  refine ⟨more, s', hall, hst, shards, data, ?_, rfl⟩
  obtain ⟨hj, hres⟩ := C92_results C 2 72 _ s' hall
  have hm : made more = [] := by
    simp only [made, List.filterMap_eq_nil_iff]
    intro e he
    have := h2 e he
    cases e <;> simp_all [Own]
  simp only [made, List.filterMap_cons] at hj hm
  rw [hm] at hj
  obtain ⟨c1, c2, hc⟩ : ∃ c1 c2, s'.calls = [c1, c2] := by
    have := congrArg List.length hj
    simp only [List.length_map, List.length_cons, List.length_nil] at this
    exact List.length_eq_two.1 this
  · rw [hc] at hj
    simp at hj
    have m1 : c1 ∈ s'.calls := by simp [hc]
    have m2 : c2 ∈ s'.calls := by simp [hc]
    obtain ⟨r1, hr1⟩ := Option.ne_none_iff_exists'.1 (h4 c1 m1)
    obtain ⟨r2, hr2⟩ := Option.ne_none_iff_exists'.1 (h4 c2 m2)
    have g1 := hres c1 m1 r1 hr1
    have g2 := hres c2 m2 r2 hr2
    rw [hj.1, hst] at g1
    rw [hj.2, hst] at g2
    obtain ⟨res1, e1, rfl⟩ := g1
    obtain ⟨res2, e2, rfl⟩ := g2
    rw [(h1 res1).1 e1] at hr1
    rw [((h5 view (h shards h1)).1 res2).1 e2] at hr2
    rw [hc]
    simp [hr1, hr2]
    exact ⟨rfl, rfl⟩

end Resmix.Ecc.EccPool
