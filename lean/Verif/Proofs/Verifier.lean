import Verif.Model.Verifier
import Verif.Proofs.GoMap
import Mathlib.Tactic.Common
set_option autoImplicit false
namespace Resmix.Rrpc
open Resmix.Merkle

/-- What is known of a call at some point of its execution. -/
def CallOk (S : SigScheme) (H : HashFn) (s : VState) (c : VCall) : VPc → Prop
  | .start => True
  | .authed => ∃ cert, c.cert = some cert ∧ authPath H cert c.enc = .ok ()
  | .loaded t => ∃ cert, c.cert = some cert ∧ authPath H cert c.enc = .ok () ∧ ∃ task, s.tasks[t]? = some task ∧ fitDigest task.cert.root = fitDigest cert.root
  | .waiting t _ => ∃ cert, c.cert = some cert ∧ authPath H cert c.enc = .ok () ∧ ∃ task, s.tasks[t]? = some task ∧
      fitDigest task.cert.root = fitDigest cert.root ∧ task.taken = true
  | .done (.ok _) => ∃ cert, c.cert = some cert ∧ authPath H cert c.enc = .ok () ∧ ∃ c' ∈ s.calls.map Prod.fst, ∃ cert', c'.cert = some cert' ∧
      fitDigest cert'.root = fitDigest cert.root ∧ authPath H cert' c'.enc = .ok () ∧ sigResult S c'.pk cert' = .ok ()
  | .done (.error e) => (c.cert = none ∧ e = emptyCertificate) ∨ ∃ cert, c.cert = some cert ∧ (authPath H cert c.enc = .error e ∨
      (authPath H cert c.enc = .ok () ∧ ∃ c' ∈ s.calls.map Prod.fst, ∃ cert', c'.cert = some cert' ∧ fitDigest cert'.root = fitDigest cert.root ∧
        authPath H cert' c'.enc = .ok () ∧ sigResult S c'.pk cert' = .error e))

/-- Invariant of the verifier. -/
structure VInv (S : SigScheme) (H : HashFn) (s : VState) : Prop where
  task : ∀ (t : Nat) (task : VTask), s.tasks[t]? = some task → (∀ r, task.result = some r → r = sigResult S task.pk task.cert ∧ task.taken = true) ∧
    ∃ c ∈ s.calls.map Prod.fst, c.pk = task.pk ∧ c.cert = some task.cert ∧ authPath H task.cert c.enc = .ok ()
  map : ∀ (d : Digest) (t : Nat), s.map.lookup d = some t → ∃ task, s.tasks[t]? = some task ∧ fitDigest task.cert.root = d
  call : ∀ (i : Nat) (c : VCall) (pc : VPc), s.calls[i]? = some (c, pc) → CallOk S H s c pc

/-- What never shrinks. -/
structure VExt (s s' : VState) : Prop where
  calls : ∀ c ∈ s.calls.map Prod.fst, c ∈ s'.calls.map Prod.fst
  tasks : ∀ (t : Nat) (task : VTask), s.tasks[t]? = some task → ∃ task', s'.tasks[t]? = some task' ∧ task'.pk = task.pk ∧ task'.cert = task.cert ∧
    (task.taken = true → task'.taken = true)

theorem CallOk.ext {S : SigScheme} {H : HashFn} {s s' : VState} (e : VExt s s') {c : VCall} {pc : VPc} (h : CallOk S H s c pc) : CallOk S H s' c pc := by
  match pc, h with
  | .start, _ => trivial
  | .authed, h => exact h
  | .loaded t, ⟨cert, h1, h2, task, h3, h4⟩ =>
    obtain ⟨task', a, -, b, -⟩ := e.tasks t task h3
    exact ⟨cert, h1, h2, task', a, by rw [b]; exact h4⟩
  | .waiting t _, ⟨cert, h1, h2, task, h3, h4, h5⟩ =>
    obtain ⟨task', a, -, b, c⟩ := e.tasks t task h3
    exact ⟨cert, h1, h2, task', a, by rw [b]; exact h4, c h5⟩
  | .done (.ok _), ⟨cert, h1, h2, c', h3, h4⟩ => exact ⟨cert, h1, h2, c', e.calls c' h3, h4⟩
  | .done (.error _), h =>
    rcases h with h | ⟨cert, h1, h | ⟨h2, c', h3, h4⟩⟩
    · exact Or.inl h
    · exact Or.inr ⟨cert, h1, Or.inl h⟩
    · exact Or.inr ⟨cert, h1, Or.inr ⟨h2, c', e.calls c' h3, h4⟩⟩

theorem set_fst_mem {l : List (VCall × VPc)} {i : Nat} {c : VCall} {pc pc' : VPc} (h : l[i]? = some (c, pc)) :
    (l.set i (c, pc')).map Prod.fst = l.map Prod.fst := by
  rw [List.map_set]
  apply List.ext_getElem?
  intro j
  rw [List.getElem?_set]
  split
  · next hij =>
    subst hij
    obtain ⟨hi, hh⟩ := List.getElem?_eq_some_iff.1 h
    rw [List.length_map, if_pos hi, List.getElem?_map, h]; rfl
  · rfl

theorem getElem?_set_some {α : Type} {l : List α} {i j : Nat} {a b : α} (h : (l.set i a)[j]? = some b) : (i = j ∧ b = a) ∨ l[j]? = some b := by
  rw [List.getElem?_set] at h
  split at h
  · next hij => left; refine ⟨hij, ?_⟩; split at h <;> simp_all
  · exact Or.inr h

/-- A step that only changes one program counter. -/
theorem VInv.pc {S : SigScheme} {H : HashFn} {s : VState} (inv : VInv S H s) {i : Nat} {c : VCall} {pc pc' : VPc} (hi : s.calls[i]? = some (c, pc))
    (m : GoMap Digest Nat) (hm : ∀ d t, m.lookup d = some t → s.map.lookup d = some t) (hok : CallOk S H s c pc') :
    VInv S H { s with map := m, calls := s.calls.set i (c, pc') } := by
  have hf := set_fst_mem (pc' := pc') hi
  have e : VExt s { s with map := m, calls := s.calls.set i (c, pc') } := ⟨fun x hx => by simp only [hf]; exact hx, fun t task ht => ⟨task, ht, rfl, rfl, id⟩⟩
  refine ⟨?_, ?_, ?_⟩
  · intro t task ht
    obtain ⟨a, c', b, d⟩ := inv.task t task ht
    exact ⟨a, c', e.calls c' b, d⟩
  · intro d t hd; exact inv.map d t (hm d t hd)
  · intro j c' pc'' hj
    rcases getElem?_set_some hj with ⟨-, h⟩ | h
    · injection h with h1 h2; subst h1; subst h2; exact hok.ext e
    · exact (inv.call j c' pc'' h).ext e

theorem lookup_erase_some {d d' : Digest} {m : GoMap Digest Nat} {t : Nat} (h : (m.erase d).lookup d' = some t) : m.lookup d' = some t := by
  by_cases hd : d' = d
  · subst hd; rw [GoMap.lookup_erase_self] at h; simp at h
  · rwa [GoMap.lookup_erase_ne _ hd] at h

theorem VInv.work {S : SigScheme} {H : HashFn} {s s' : VState} (inv : VInv S H s) (st : VWork S H s s') : VInv S H s' := by
  cases st with
  | noCert i c hc hi hn => exact inv.pc hi s.map (fun _ _ h => h) (Or.inl ⟨hn, rfl⟩)
  | auth i c cert hc hi hn ha => exact inv.pc hi s.map (fun _ _ h => h) ⟨cert, hn, ha⟩
  | authFail i c cert e hc hi hn ha => exact inv.pc hi s.map (fun _ _ h => h) (Or.inr ⟨cert, hn, Or.inl ha⟩)
  | load i c cert t hc hi hn hl =>
    obtain ⟨cert', h1, h2⟩ := inv.call i c _ hi
    rw [hn] at h1; injection h1 with h1; subst h1
    obtain ⟨task, h3, h4⟩ := inv.map _ t hl
    exact inv.pc hi s.map (fun _ _ h => h) ⟨cert, hn, h2, task, h3, h4⟩
  | store i c cert hc hi hn hl =>
    obtain ⟨cert', h1, h2⟩ := inv.call i c _ hi
    rw [hn] at h1; injection h1 with h1; subst h1
    have hf := set_fst_mem (pc' := VPc.loaded s.tasks.length) hi
    refine ⟨?_, ?_, ?_⟩
    · intro t task ht
      simp only at ht
      rw [List.getElem?_append] at ht
      split at ht
      · obtain ⟨a, c', b, d⟩ := inv.task t task ht
        exact ⟨a, c', by simp only [hf]; exact b, d⟩
      · rw [List.getElem?_singleton] at ht
        split at ht
        · simp at ht; subst ht
          refine ⟨by simp, c, ?_, rfl, hn, h2⟩
          simp only [hf]; exact List.mem_map.2 ⟨_, List.mem_of_getElem? hi, rfl⟩
        · simp at ht
    · intro d t hd
      simp only at hd
      by_cases hdd : d = fitDigest cert.root
      · subst hdd
        rw [GoMap.lookup_insert_self] at hd
        injection hd with hd; subst hd
        exact ⟨_, by simp only; rw [List.getElem?_append_right (Nat.le_refl _), Nat.sub_self]; rfl, rfl⟩
      · rw [GoMap.lookup_insert_ne _ _ hdd] at hd
        obtain ⟨task, h3, h4⟩ := inv.map d t hd
        refine ⟨task, ?_, h4⟩
        simp only
        rw [List.getElem?_append_left (List.getElem?_eq_some_iff.1 h3).1]; exact h3
    · have e : VExt s { s with map := s.map.insert (fitDigest cert.root) s.tasks.length
                               tasks := s.tasks ++ [{ pk := c.pk, cert := cert, taken := false, result := none }]
                               calls := s.calls.set i (c, .loaded s.tasks.length) } := by
        refine ⟨fun x hx => by simp only [hf]; exact hx, fun t task ht => ⟨task, ?_, rfl, rfl, id⟩⟩
        simp only
        rw [List.getElem?_append_left (List.getElem?_eq_some_iff.1 ht).1]; exact ht
      intro j c' pc hj
      simp only at hj
      rcases getElem?_set_some hj with ⟨-, h⟩ | h
      · injection h with h1 h2'; subst h1; subst h2'
        exact ⟨cert, hn, h2, _, by simp only; rw [List.getElem?_append_right (Nat.le_refl _), Nat.sub_self]; rfl, rfl⟩
      · exact (inv.call j c' pc h).ext e
  | take i c t task hc hi ht htk =>
    obtain ⟨cert, h1, h2, task', h3, h4⟩ := inv.call i c _ hi
    rw [ht] at h3; injection h3 with h3; subst h3
    have hf := set_fst_mem (pc' := VPc.waiting t true) hi
    have htl := (List.getElem?_eq_some_iff.1 ht).1
    have e : VExt s { s with tasks := s.tasks.set t { task with taken := true }, calls := s.calls.set i (c, VPc.waiting t true) } := by
      refine ⟨fun x hx => by simp only [hf]; exact hx, fun u tsk hu => ?_⟩
      by_cases htu : t = u
      · subst htu
        rw [ht] at hu; injection hu with hu; subst hu
        exact ⟨{ task with taken := true }, by simp [htl], rfl, rfl, fun _ => rfl⟩
      · exact ⟨tsk, by simp only; rw [List.getElem?_set_ne htu]; exact hu, rfl, rfl, id⟩
    refine ⟨?_, ?_, ?_⟩
    · intro u tsk hu
      rcases getElem?_set_some hu with ⟨-, h⟩ | h
      · subst h
        obtain ⟨a, c', b, d⟩ := inv.task t task ht
        refine ⟨fun r hr => ⟨(a r hr).1, rfl⟩, c', e.calls c' b, d⟩
      · obtain ⟨a, c', b, d⟩ := inv.task u tsk h
        exact ⟨a, c', e.calls c' b, d⟩
    · intro d u hd
      obtain ⟨tsk, a, b⟩ := inv.map d u hd
      obtain ⟨tsk', a', -, b', -⟩ := e.tasks u tsk a
      exact ⟨tsk', a', by rw [b']; exact b⟩
    · intro j c' pc hj
      rcases getElem?_set_some hj with ⟨-, h⟩ | h
      · injection h with g1 g2; subst g1; subst g2
        exact ⟨cert, h1, h2, { task with taken := true }, by simp [htl], h4, rfl⟩
      · exact (inv.call j c' pc h).ext e
  | join i c t task hc hi ht htk =>
    obtain ⟨cert, h1, h2, task', h3, h4⟩ := inv.call i c _ hi
    rw [ht] at h3; injection h3 with h3; subst h3
    exact inv.pc hi s.map (fun _ _ h => h) ⟨cert, h1, h2, task, ht, h4, htk⟩
  | work t task hc ht htk hr hp =>
    have htl := (List.getElem?_eq_some_iff.1 ht).1
    have e : VExt s { s with tasks := s.tasks.set t { task with result := some (sigResult S task.pk task.cert) } } := by
      refine ⟨fun x hx => hx, fun u tsk hu => ?_⟩
      by_cases htu : t = u
      · subst htu
        rw [ht] at hu; injection hu with hu; subst hu
        exact ⟨{ task with result := some (sigResult S task.pk task.cert) }, by simp [htl], rfl, rfl, id⟩
      · exact ⟨tsk, by simp only; rw [List.getElem?_set_ne htu]; exact hu, rfl, rfl, id⟩
    refine ⟨?_, ?_, ?_⟩
    · intro u tsk hu
      rcases getElem?_set_some hu with ⟨-, h⟩ | h
      · subst h
        obtain ⟨a, c', b, d⟩ := inv.task t task ht
        refine ⟨fun r hr => ⟨by simpa using hr.symm, htk⟩, c', b, d⟩
      · exact inv.task u tsk h
    · intro d u hd
      obtain ⟨tsk, a, b⟩ := inv.map d u hd
      obtain ⟨tsk', a', -, b', -⟩ := e.tasks u tsk a
      exact ⟨tsk', a', by rw [b']; exact b⟩
    · intro j c' pc hj
      exact (inv.call j c' pc hj).ext e
  | workCrash t task hc ht htk hr hp =>
    exact ⟨inv.task, inv.map, fun j c pc hj => (inv.call j c pc hj).ext ⟨fun _ h => h, fun t task ht => ⟨task, ht, rfl, rfl, id⟩⟩⟩
  | accept i c t mine task hc hi ht hr =>
    obtain ⟨cert, h1, h2, task', h3, h4, -⟩ := inv.call i c _ hi
    rw [ht] at h3; injection h3 with h3; subst h3
    obtain ⟨a, c', b, d1, d2, d3⟩ := inv.task t task ht
    exact inv.pc hi s.map (fun _ _ h => h) ⟨cert, h1, h2, c', b, task.cert, d2, h4, d3, by rw [d1]; exact (a _ hr).1.symm⟩
  | retry i c cert t task e hc hi hn ht hr hs => exact inv.pc hi _ (fun _ _ h => lookup_erase_some h) trivial
  | reject i c cert t mine task e hc hi hn ht hr hs =>
    obtain ⟨cert', h1, h2, task', h3, h4, -⟩ := inv.call i c _ hi
    rw [ht] at h3; injection h3 with h3; subst h3
    rw [hn] at h1; injection h1 with h1; subst h1
    obtain ⟨a, c', b, d1, d2, d3⟩ := inv.task t task ht
    exact inv.pc hi _ (fun _ _ h => lookup_erase_some h) (Or.inr ⟨cert, hn, Or.inr ⟨h2, c', b, task.cert, d2, h4, d3, by rw [d1]; exact (a _ hr).1.symm⟩⟩)

theorem VInv.step {S : SigScheme} {H : HashFn} {s s' : VState} (inv : VInv S H s) (st : VStep S H s s') : VInv S H s' := by
  cases st with
  | call c hc =>
    have e : VExt s { s with calls := s.calls ++ [(c, VPc.start)] } := ⟨fun x hx => by rw [List.map_append]; exact List.mem_append_left _ hx,
      fun t task ht => ⟨task, ht, rfl, rfl, id⟩⟩
    refine ⟨?_, inv.map, ?_⟩
    · intro t task ht
      obtain ⟨a, c', b, d⟩ := inv.task t task ht
      exact ⟨a, c', e.calls c' b, d⟩
    · intro j c' pc hj
      rw [List.getElem?_append] at hj
      split at hj
      · exact (inv.call j c' pc hj).ext e
      · rw [List.getElem?_singleton] at hj
        split at hj
        · simp at hj; obtain ⟨rfl, rfl⟩ := hj; trivial
        · simp at hj
  | work _ hw => exact inv.work hw
  | clean d hc =>
    exact ⟨inv.task, fun d' t h => inv.map d' t (lookup_erase_some h), fun j c pc hj => (inv.call j c pc hj).ext ⟨fun _ h => h, fun t task ht => ⟨task, ht, rfl, rfl, id⟩⟩⟩

theorem VReach.inv {S : SigScheme} {H : HashFn} {s : VState} (r : VReach S H s) : VInv S H s := by
  induction r with
  | init => exact ⟨by simp [VState.init], by simp [VState.init], by simp [VState.init]⟩
  | step s s' _ st ih => exact ih.step st

end Resmix.Rrpc
