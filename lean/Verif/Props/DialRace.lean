import Verif.Model.DialRace
import Verif.Proofs.Race
import Mathlib.Tactic.IntervalCases
import Mathlib.Data.List.Induction
import Mathlib.Data.List.Perm.Subperm
set_option autoImplicit false
/-
C125: using a coordinator, or a mix server, while its Dial runs.
-/
namespace Resmix.DialRace
open Resmix.Race

theorem run_append {s : State} (a b : List Act) : run s (a ++ b) = (run s a).bind fun s' => run s' b := by
  induction a generalizing s with
  | nil => rfl
  | cons e a ih =>
    simp only [List.cons_append, run]
    cases step s e with
    | none => rfl
    | some s1 => simp [ih]

theorem run_snoc {s s' : State} {as : List Act} {a : Act} (h : run s (as ++ [a]) = some s') : ∃ s1, run s as = some s1 ∧ step s1 a = some s' := by
  rw [run_append] at h
  cases h1 : run s as with
  | none => simp [h1] at h
  | some s1 =>
    rw [h1] at h
    simp only [Option.bind_some, run] at h
    cases h2 : step s1 a with
    | none => simp [h2] at h
    | some s2 => simp [h2] at h; subst h; exact ⟨s1, rfl, h2⟩

/-- The first event of a goroutine, unless it acquires something, happens after nothing. -/
theorem hb_first {tr : List Entry} {i j : Nat} {b : Entry} (h : HB tr i j) (hj : tr[j]? = some b) (hfirst : ∀ (k : Nat) (a : Entry), k < j → tr[k]? = some a → a.g ≠ b.g)
    (hop : ∀ u, b.op ≠ .acquire u) : False := by
  induction h with
  | program hlt hi hj' hg => rw [hj] at hj'; cases hj'; exact hfirst _ _ hlt hi hg
  | sync _ _ hj' _ hb => rw [hj] at hj'; cases hj'; exact hop _ hb
  | trans _ _ _ ih => exact ih hj hfirst

/-- Dial makes the connections `pre`. -/
def dialled (pre : List (Nat × Str)) : List Act := pre.flatMap fun _ => [.begin, .finish]

theorem run_dialled (pre rest : List (Nat × Str)) : ∀ (s : State), s.plan = pre ++ rest → s.writing = none → s.died = false → (∀ e ∈ s.trace, e.g = none) →
    ∃ s', run s (dialled pre) = some s' ∧ s'.plan = rest ∧ s'.writing = none ∧ s'.died = false ∧ s'.answers = s.answers ∧ (∀ e ∈ s'.trace, e.g = none) ∧
      ∀ tab h, h ∈ s'.tables tab ↔ h ∈ s.tables tab ∨ (tab, h) ∈ pre := by
  induction pre with
  | nil => intro s h1 h2 h3 h4; exact ⟨s, rfl, h1, h2, h3, rfl, h4, by simp⟩
  | cons e pre ih =>
    intro s h1 h2 h3 h4
    obtain ⟨tab, h⟩ := e
    obtain ⟨s', r1, r2, r3, r4, r5, r6, r7⟩ := ih { s with writing := none, plan := pre ++ rest, tables := put s.tables tab h, trace := s.trace ++ [⟨none, .write tab⟩] ++ [⟨none, .write tab⟩] }
      rfl rfl h3 (by simp only [List.mem_append, List.mem_singleton]; rintro e ((he | rfl) | rfl) <;> first | exact h4 _ he | rfl)
    refine ⟨s', ?_, r2, r3, r4, r5, r6, fun t x => ?_⟩
    · rw [List.cons_append] at h1
      simp only [dialled, List.flatMap_cons, List.cons_append, List.nil_append, run, step, h3, h2, h1, if_true, Bool.false_eq_true, if_false, Option.bind_some, reduceCtorEq]
      rw [h3] at r1
      exact r1
    · rw [r7]
      simp only [put, List.mem_cons, Prod.mk.injEq]
      by_cases et : t = tab
      · subst et
        by_cases hx : h ∈ s.tables t
        · simp only [if_true, hx, true_and]
          constructor
          · rintro (h | h)
            · exact .inl h
            · exact .inr (.inr h)
          · rintro (h' | rfl | h')
            · exact .inl h'
            · exact .inl hx
            · exact .inr h'
        · simp [hx, or_assoc]
      · simp [et]

/-- C125 fails: whatever servers there are, at any moment at which Dial writes an entry of a table, a request of another goroutine that looks up any host in this table is
a data race that ends the process. -/
theorem C125_process_ends_refuted (pre rest : List (Nat × Str)) (tab : Nat) (h : Str) (g : Nat) (x : Str) :
    ∃ s, run (start (pre ++ (tab, h) :: rest)) (dialled pre ++ [.begin, .look g tab x]) = some s ∧ s.died = true ∧ ¬ RaceFree s.trace := by
  obtain ⟨s1, h1, h2, h3, h4, h5, h6, h7⟩ := run_dialled pre ((tab, h) :: rest) (start _) rfl rfl rfl (by simp [start])
  refine ⟨{ s1 with writing := some tab, died := true, trace := s1.trace ++ [⟨none, .write tab⟩] ++ [⟨some g, .read tab⟩] }, ?_, rfl, ?_⟩
  · rw [run_append, h1]
    simp [run, step, h2, h3, h4, use]
  · intro hrf
    have hb := hrf s1.trace.length (s1.trace.length + 1) ⟨none, .write tab⟩ ⟨some g, .read tab⟩ (by omega) (by simp) (by simp) ⟨tab, .inl ⟨rfl, .inl rfl⟩⟩
    refine hb_first hb (b := ⟨some g, .read tab⟩) (by simp) (fun k a hk ha he => ?_) (fun u h => by cases h)
    dsimp only at ha
    rw [List.getElem?_append_left (by simp; omega)] at ha
    rcases get_snoc ha with ⟨-, rfl⟩ | ⟨-, ha⟩
    · cases he
    · have := h6 a (List.mem_of_getElem? ha)
      rw [this] at he; cases he

/-- C125 fails also without a race of that kind: a request that arrives before the entry of its host is written finds no connection (AsyncSend then refuses the message as
"no connection to server", a mix server's sender dereferences nil). -/
theorem C125_missing_refuted (pre rest : List (Nat × Str)) (tab : Nat) (h : Str) (hnew : (tab, h) ∉ pre) (g : Nat) :
    ∃ s, run (start (pre ++ (tab, h) :: rest)) (dialled pre ++ [.look g tab h]) = some s ∧ s.died = false ∧ s.answers = [(g, .has tab h false)] := by
  obtain ⟨s1, h1, h2, h3, h4, h5, h6, h7⟩ := run_dialled pre ((tab, h) :: rest) (start _) rfl rfl rfl (by simp [start])
  have hn : h ∉ s1.tables tab := by rw [h7]; simp [start, hnew]
  refine ⟨{ s1 with answers := [(g, .has tab h false)], trace := s1.trace ++ [⟨some g, .read tab⟩] }, ?_, h4, rfl⟩
  rw [run_append, h1]
  simp [run, step, h3, h4, use, hn, h5, start]

/-- And RobustRequest, before Dial has made all relay connections, finds fewer of them than there are servers: it refuses every call as "bad request". -/
theorem C125_bad_request_refuted (done todo : List Str) (hnd : (done ++ todo).Nodup) (htodo : todo ≠ []) (g : Nat) :
    ∃ s n, run (start (coordinatorPlan (done ++ todo))) (dialled (coordinatorPlan done) ++ [.size g 0]) = some s ∧ s.answers = [(g, .len 0 n)] ∧ n < (done ++ todo).length := by
  obtain ⟨s1, h1, h2, h3, h4, h5, h6, h7⟩ := run_dialled (coordinatorPlan done) (coordinatorPlan todo) (start (coordinatorPlan (done ++ todo))) (by simp [start, coordinatorPlan]) rfl rfl
    (by simp [start])
  refine ⟨{ s1 with answers := [(g, .len 0 (s1.tables 0).length)], trace := s1.trace ++ [⟨some g, .read 0⟩] }, _, ?_, rfl, ?_⟩
  · rw [run_append, h1]
    simp [run, step, h4, h5, start]
  · have hsub : ∀ x ∈ s1.tables 0, x ∈ done := by
      intro x hx
      have := (h7 0 x).1 hx
      simp [start, coordinatorPlan] at this
      exact this
    have hn : ∀ (p : List (Nat × Str)) (s s' : State), run s (dialled p) = some s' → (∀ t, (s.tables t).Nodup) → ∀ t, (s'.tables t).Nodup := by
      intro p
      induction p with
      | nil => intro s s' h hs; simp [dialled, run] at h; subst h; exact hs
      | cons e p ih =>
        intro s s' h hs
        rw [show dialled (e :: p) = [.begin, .finish] ++ dialled p from rfl, run_append] at h
        cases hr : run s [.begin, .finish] with
        | none => rw [hr] at h; cases h
        | some s2 =>
          rw [hr] at h
          refine ih s2 s' h ?_
          have hnd : ∀ (s s2 : State) (a : Act), step s a = some s2 → (∀ t, (s.tables t).Nodup) → ∀ t, (s2.tables t).Nodup := by
            intro s s2 a h hs t
            unfold step at h
            split at h
            · cases h
            · cases a <;> dsimp only [use] at h <;> (repeat' split at h) <;> simp at h <;> subst h <;> dsimp only <;> first | exact hs t | skip
              simp only [put]
              split
              · split
                · exact hs t
                · rename_i hx
                  rw [List.nodup_append]
                  exact ⟨hs t, by simp, fun a ha b hb => by rw [List.mem_singleton] at hb; subst hb; rintro rfl; exact hx ha⟩
              · exact hs t
          simp only [run] at hr
          cases hr1 : step s .begin with
          | none => rw [hr1] at hr; cases hr
          | some s3 =>
            rw [hr1] at hr
            simp only [Option.bind_some] at hr
            cases hr2 : step s3 .finish with
            | none => rw [hr2] at hr; cases hr
            | some s4 =>
              rw [hr2] at hr
              cases hr
              exact hnd _ _ _ hr2 (hnd _ _ _ hr1 hs)
    have hle : (s1.tables 0).length ≤ done.length := (List.Nodup.subperm (hn _ _ _ h1 (by simp [start]) 0) hsub).length_le
    have : 0 < todo.length := List.length_pos_iff.2 htodo
    rw [List.length_append]
    omega

/-- The hosts planned for a table, each once, in order. -/
def planned (plan : List (Nat × Str)) (tab : Nat) : List Str := (plan.filter fun e => e.1 = tab).map (·.2)

structure Inv (plan : List (Nat × Str)) (as : List Act) (s : State) : Prop where
  up : s.died = false
  free : RaceFree s.trace
  ret : s.returned = true → s.plan = []
  wr : s.writing ≠ none → s.plan ≠ []
  early : s.returned = false → s.answers = [] ∧ ∀ g, Act.learn g ∉ as
  dial : ∀ (i : Nat) (e : Entry), s.trace[i]? = some e → (∃ l, e.op = .write l) → e.g = none
  reads : ∀ (i : Nat) (e : Entry), s.trace[i]? = some e → (∃ l, e.op = .read l) → s.returned = true
  rel : s.returned = true → ∀ (i : Nat) (e : Entry), s.trace[i]? = some e → (∃ l, e.op = .write l) → Rel s.trace () i
  know : ∀ g, Act.learn g ∈ as → ∀ (i : Nat) (e : Entry), s.trace[i]? = some e → (∃ l, e.op = .write l) → Known s.trace (some g) i
  mem : ∀ tab h, h ∈ planned plan tab ↔ h ∈ s.tables tab ∨ h ∈ planned s.plan tab
  nodup : ∀ tab, (s.tables tab).Nodup
  ans : ∀ g a, (g, a) ∈ s.answers → match a with
    | .has tab h yes => yes = decide (h ∈ planned plan tab)
    | .len tab n => ∃ l : List Str, l.Nodup ∧ (∀ h, h ∈ l ↔ h ∈ planned plan tab) ∧ n = l.length
    | .keys tab hs => hs.Nodup ∧ ∀ h, h ∈ hs ↔ h ∈ planned plan tab

theorem inv_start (plan : List (Nat × Str)) : Inv plan [] (start plan) := by
  constructor <;> simp [start, planned, RaceFree.nil]


theorem planned_cons (tab : Nat) (h : Str) (rest : List (Nat × Str)) (t : Nat) :
    planned ((tab, h) :: rest) t = if tab = t then h :: planned rest t else planned rest t := by
  unfold planned
  by_cases e : tab = t <;> simp [e]

/-- A new access or synchronisation that is no write keeps what concerns writes. -/
theorem keep_write {tr : List Entry} {e : Entry} (he : ¬ ∃ l, e.op = .write l) {P : Nat → Prop} (h : ∀ (i : Nat) (x : Entry), tr[i]? = some x → (∃ l, x.op = .write l) → P i) :
    ∀ (i : Nat) (x : Entry), (tr ++ [e])[i]? = some x → (∃ l, x.op = .write l) → P i := by
  intro i x hi hw
  rcases get_snoc hi with ⟨-, rfl⟩ | ⟨-, hi⟩
  · exact absurd hw he
  · exact h i x hi hw

theorem read_free {plan : List (Nat × Str)} {as : List Act} {s : State} (hi : Inv plan as s) {g tab : Nat} (hl : Act.learn g ∈ as) :
    RaceFree (s.trace ++ [⟨some g, .read tab⟩]) := by
  refine hi.free.snoc fun i a ha hc => ?_
  obtain ⟨l, hc⟩ := hc
  refine hi.know g hl i a ha ?_
  rcases hc with ⟨h, -⟩ | ⟨-, h⟩
  · exact ⟨l, h⟩
  · cases h

theorem write_free {plan : List (Nat × Str)} {as : List Act} {s : State} (hi : Inv plan as s) {tab : Nat} (hr : s.returned = false) :
    RaceFree (s.trace ++ [⟨none, .write tab⟩]) := by
  refine hi.free.snoc fun i a ha hc => ?_
  obtain ⟨l, hc⟩ := hc
  rcases hc with ⟨h, -⟩ | ⟨h, -⟩
  · exact ⟨i, a, ha, hi.dial i a ha ⟨l, h⟩, .inl rfl⟩
  · have := hi.reads i a ha ⟨l, h⟩
    rw [hr] at this; cases this

/-- What a use by a goroutine that was told changes. -/
theorem inv_use {plan : List (Nat × Str)} {as : List Act} {s : State} (hi : Inv plan as s) {g tab : Nat} {act : Act} (hl : Act.learn g ∈ as) (hact : ∀ g, act ≠ .learn g) {a : Ans}
    (ha : match a with
      | .has tab h yes => yes = decide (h ∈ planned plan tab)
      | .len tab n => ∃ l : List Str, l.Nodup ∧ (∀ h, h ∈ l ↔ h ∈ planned plan tab) ∧ n = l.length
      | .keys tab hs => hs.Nodup ∧ ∀ h, h ∈ hs ↔ h ∈ planned plan tab) :
    Inv plan (as ++ [act]) { s with answers := s.answers ++ [(g, a)], trace := s.trace ++ [⟨some g, .read tab⟩] } := by
  have hret : s.returned = true := by
    cases h : s.returned with
    | true => rfl
    | false => exact absurd hl ((hi.early h).2 g)
  have hno : ¬ ∃ l, (⟨some g, .read tab⟩ : Entry).op = .write l := by rintro ⟨l, h⟩; cases h
  have hlearn : ∀ g', Act.learn g' ∈ as ++ [act] → Act.learn g' ∈ as := by
    intro g' h
    rcases List.mem_append.1 h with h | h
    · exact h
    · rw [List.mem_singleton] at h; exact absurd h.symm (hact g')
  constructor
  · exact hi.up
  · exact read_free hi hl
  · exact hi.ret
  · exact hi.wr
  · intro h; dsimp only at h; rw [hret] at h; cases h
  · intro i e he hw
    rcases get_snoc he with ⟨-, rfl⟩ | ⟨-, he⟩
    · exact absurd hw hno
    · exact hi.dial i e he hw
  · exact fun _ _ _ _ => hret
  · exact fun _ => keep_write hno fun i x h1 h2 => (hi.rel hret i x h1 h2).mono _
  · exact fun g' h' => keep_write hno fun i x h1 h2 => (hi.know g' (hlearn g' h') i x h1 h2).mono _
  · exact hi.mem
  · exact hi.nodup
  · intro g' a' h
    rcases List.mem_append.1 h with h | h
    · exact hi.ans g' a' h
    · rw [List.mem_singleton] at h
      obtain ⟨rfl, rfl⟩ := Prod.mk.inj h
      exact ha

theorem inv_step {plan : List (Nat × Str)} {as : List Act} {s s' : State} {a : Act} (hi : Inv plan as s) (h : step s a = some s')
    (hp : ∀ g, a.user = some g → Act.learn g ∈ as) : Inv plan (as ++ [a]) s' := by
  unfold step at h
  rw [if_neg (by simp [hi.up])] at h
  have told : ∀ g, Act.learn g ∈ as → s.returned = true ∧ s.writing = none ∧ ∀ tab h, h ∈ s.tables tab ↔ h ∈ planned plan tab := by
    intro g hl
    have hret : s.returned = true := by
      cases h : s.returned with
      | true => rfl
      | false => exact absurd hl ((hi.early h).2 g)
    refine ⟨hret, ?_, fun tab h => ?_⟩
    · by_contra hw; exact hi.wr hw (hi.ret hret)
    · rw [hi.mem tab h, hi.ret hret]; simp [planned]
  have same : ∀ (b : Act), (∀ g, b ≠ .learn g) → ∀ g, Act.learn g ∈ as ++ [b] → Act.learn g ∈ as := by
    intro b hb g h
    rcases List.mem_append.1 h with h | h
    · exact h
    · rw [List.mem_singleton] at h; exact absurd h.symm (hb g)
  cases a with
  | begin =>
    dsimp only at h
    split at h
    · cases h
    · rename_i tab x rest he
      split at h
      · simp at h; subst h
        have hret : s.returned = false := by
          cases h : s.returned with
          | false => rfl
          | true => rw [hi.ret h] at he; cases he
        refine ⟨hi.up, write_free hi hret, hi.ret, fun _ => by simp [he], fun h => ⟨(hi.early h).1, fun g hg => (hi.early h).2 g (same .begin (fun g h => by cases h) g hg)⟩, ?_, ?_, ?_, ?_,
          hi.mem, hi.nodup, hi.ans⟩
        · intro i e h hw
          rcases get_snoc h with ⟨-, rfl⟩ | ⟨-, h⟩
          · rfl
          · exact hi.dial i e h hw
        · intro i e h hr
          rcases get_snoc h with ⟨-, rfl⟩ | ⟨-, h⟩
          · obtain ⟨l, hr⟩ := hr; cases hr
          · exact hi.reads i e h hr
        · intro h; dsimp only at h; rw [hret] at h; cases h
        · intro g hg; exact absurd (same .begin (fun g h => by cases h) g hg) ((hi.early hret).2 g)
      · cases h
  | finish =>
    dsimp only at h
    split at h
    · cases h
    · rename_i tab x rest he
      split at h
      · cases h
      · simp at h; subst h
        have hret : s.returned = false := by
          cases h : s.returned with
          | false => rfl
          | true => rw [hi.ret h] at he; cases he
        refine ⟨hi.up, write_free hi hret, fun h => ?_, fun h => absurd rfl h, fun h => ⟨(hi.early h).1, fun g hg => (hi.early h).2 g (same .finish (fun g h => by cases h) g hg)⟩, ?_, ?_, ?_, ?_,
          ?_, ?_, hi.ans⟩
        · dsimp only at h; rw [hret] at h; cases h
        · intro i e h hw
          rcases get_snoc h with ⟨-, rfl⟩ | ⟨-, h⟩
          · rfl
          · exact hi.dial i e h hw
        · intro i e h hr
          rcases get_snoc h with ⟨-, rfl⟩ | ⟨-, h⟩
          · obtain ⟨l, hr⟩ := hr; cases hr
          · exact hi.reads i e h hr
        · intro h; dsimp only at h; rw [hret] at h; cases h
        · intro g hg; exact absurd (same .finish (fun g h => by cases h) g hg) ((hi.early hret).2 g)
        · intro t y
          rw [hi.mem t y, he, planned_cons]
          simp only [put]
          by_cases et : t = tab
          · subst et
            by_cases hx : x ∈ s.tables t
            · simp only [hx, if_true, List.mem_cons]
              constructor
              · rintro (h | rfl | h)
                · exact .inl h
                · exact .inl hx
                · exact .inr h
              · rintro (h | h)
                · exact .inl h
                · exact .inr (.inr h)
            · simp [hx, or_assoc]
          · have et' : tab ≠ t := fun h => et h.symm
            simp [et, et']
        · intro t
          simp only [put]
          split
          · split
            · exact hi.nodup t
            · rename_i hx
              rw [List.nodup_append]
              exact ⟨hi.nodup t, by simp, fun a ha b hb => by rw [List.mem_singleton] at hb; subst hb; rintro rfl; exact hx ha⟩
          · exact hi.nodup t
  | ret =>
    dsimp only at h
    split at h
    · rename_i hc
      simp at h; subst h
      have hno : ¬ ∃ l, (⟨none, .release ()⟩ : Entry).op = .write l := by rintro ⟨l, h⟩; cases h
      have hsame := same .ret (fun g h => by cases h)
      refine ⟨hi.up, hi.free.snoc_sync (.inl ⟨(), rfl⟩), fun _ => hc.1, hi.wr, (fun h => by cases h), ?_, fun _ _ _ _ => rfl, ?_, ?_, hi.mem, hi.nodup, hi.ans⟩
      · intro i e h hw
        rcases get_snoc h with ⟨-, rfl⟩ | ⟨-, h⟩
        · exact absurd hw hno
        · exact hi.dial i e h hw
      · intro _ i e h hw
        rcases get_snoc h with ⟨-, rfl⟩ | ⟨-, h⟩
        · exact absurd hw hno
        · exact Known.release ⟨i, e, h, hi.dial i e h hw, .inl rfl⟩ rfl
      · exact fun g hg => keep_write hno fun i x h1 h2 => (hi.know g (hsame g hg) i x h1 h2).mono _
    · cases h
  | learn g =>
    dsimp only at h
    split at h
    · rename_i hret
      simp at h; subst h
      have hno : ¬ ∃ l, (⟨some g, .acquire ()⟩ : Entry).op = .write l := by rintro ⟨l, h⟩; cases h
      refine ⟨hi.up, hi.free.snoc_sync (.inr ⟨(), rfl⟩), hi.ret, hi.wr, fun h => ?_, ?_, fun _ _ _ _ => hret, ?_, ?_, hi.mem, hi.nodup, hi.ans⟩
      · dsimp only at h; rw [hret] at h; cases h
      · intro i e h hw
        rcases get_snoc h with ⟨-, rfl⟩ | ⟨-, h⟩
        · exact absurd hw hno
        · exact hi.dial i e h hw
      · exact fun _ => keep_write hno fun i x h1 h2 => (hi.rel hret i x h1 h2).mono _
      · intro g' hg'
        rcases List.mem_append.1 hg' with hg' | hg'
        · exact keep_write hno fun i x h1 h2 => (hi.know g' hg' i x h1 h2).mono _
        · rw [List.mem_singleton] at hg'
          cases hg'
          exact keep_write hno fun i x h1 h2 => (hi.rel hret i x h1 h2).acquire rfl
    · cases h
  | look g tab x =>
    have hl := hp g rfl
    obtain ⟨-, hw, hm⟩ := told g hl
    dsimp only [use] at h
    rw [if_neg (by simp [hw])] at h
    cases h
    exact inv_use hi hl (act := .look g tab x) (fun g h => by cases h) (a := .has tab x (decide (x ∈ s.tables tab))) (by simp [hm])
  | size g tab =>
    have hl := hp g rfl
    obtain ⟨-, hw, hm⟩ := told g hl
    simp at h; subst h
    exact inv_use hi hl (act := .size g tab) (fun g h => by cases h) (a := .len tab _) ⟨s.tables tab, hi.nodup tab, hm tab, rfl⟩
  | range g tab =>
    have hl := hp g rfl
    obtain ⟨-, hw, hm⟩ := told g hl
    dsimp only [use] at h
    rw [if_neg (by simp [hw])] at h
    cases h
    exact inv_use hi hl (act := .range g tab) (fun g h => by cases h) (a := .keys tab _) ⟨hi.nodup tab, hm tab⟩

theorem inv_run {plan : List (Nat × Str)} {as : List Act} {s : State} (h : run (start plan) as = some s) (hp : Patient as) : Inv plan as s := by
  induction as using List.reverseRecOn generalizing s with
  | nil => simp [run] at h; subst h; exact inv_start plan
  | append_singleton as a ih =>
    obtain ⟨s1, h1, h2⟩ := run_snoc h
    refine inv_step (ih h1 ?_) h2 fun g hg => hp as a [] g rfl hg
    intro pre b post g he hg
    exact hp pre b (post ++ [a]) g (by rw [he]; simp) hg

/-- The hosts of a Dial, in the coordinator's tables. -/
theorem planned_coordinator (servers : List Str) (tab : Nat) (ht : tab < 2) : planned (coordinatorPlan servers) tab = servers := by
  unfold coordinatorPlan
  induction servers with
  | nil => rfl
  | cons s l ih =>
    rw [List.flatMap_cons, List.cons_append, List.cons_append, List.nil_append, planned_cons, planned_cons, ih]
    have : tab = 0 ∨ tab = 1 := by omega
    rcases this with rfl | rfl <;> simp

theorem planned_mix (peers : List Str) : planned (mixPlan peers) 0 = peers := by
  unfold mixPlan
  induction peers with
  | nil => rfl
  | cons s l ih => rw [List.map_cons, planned_cons, ih]; simp

theorem length_eq {l m : List Str} (hl : l.Nodup) (hm : m.Nodup) (h : ∀ x, x ∈ l ↔ x ∈ m) : l.length = m.length :=
  ((List.perm_ext_iff_of_nodup hl hm).2 h).length_eq

/-- C125, what holds: if every goroutine that uses the coordinator was told that Dial has returned, then in every schedule the process goes on, no accesses of the tables race,
every server is found in both tables and nobody else, and RobustRequest counts as many relays as there are servers. -/
theorem C125_coordinator_after_dial_partial {servers : List Str} (hnd : servers.Nodup) {as : List Act} {s : State} (h : run (start (coordinatorPlan servers)) as = some s)
    (hp : Patient as) : s.died = false ∧ RaceFree s.trace ∧
      (∀ g tab x yes, tab < 2 → (g, .has tab x yes) ∈ s.answers → (yes = true ↔ x ∈ servers)) ∧
      (∀ g tab n, tab < 2 → (g, .len tab n) ∈ s.answers → n = servers.length) ∧
      (∀ g tab hs, tab < 2 → (g, .keys tab hs) ∈ s.answers → hs.Perm servers) := by
  have hi := inv_run h hp
  refine ⟨hi.up, hi.free, fun g tab x yes ht ha => ?_, fun g tab n ht ha => ?_, fun g tab hs ht ha => ?_⟩
  · have := hi.ans _ _ ha
    dsimp only at this
    rw [planned_coordinator servers tab ht] at this
    subst this; simp
  · obtain ⟨l, h1, h2, rfl⟩ := hi.ans _ _ ha
    rw [planned_coordinator servers tab ht] at h2
    exact length_eq h1 hnd h2
  · obtain ⟨h1, h2⟩ := hi.ans _ _ ha
    rw [planned_coordinator servers tab ht] at h2
    exact (List.perm_ext_iff_of_nodup h1 hnd).2 h2

/-- C125, what holds, for a mix server: the same for `Connections`, which the senders of rounds use. -/
theorem C125_mix_after_dial_partial {peers : List Str} {as : List Act} {s : State} (h : run (start (mixPlan peers)) as = some s)
    (hp : Patient as) : s.died = false ∧ RaceFree s.trace ∧ ∀ g x yes, (g, .has 0 x yes) ∈ s.answers → (yes = true ↔ x ∈ peers) := by
  have hi := inv_run h hp
  refine ⟨hi.up, hi.free, fun g x yes ha => ?_⟩
  have := hi.ans _ _ ha
  dsimp only at this
  rw [planned_mix peers] at this
  subst this; simp

/-! Examples: two servers; goroutine 7 is told and then sends, goroutine 8 broadcasts. -/
namespace Ex
def as : List Act := [.begin, .finish, .begin, .finish, .begin, .finish, .begin, .finish, .ret, .learn 7, .size 7 0, .look 7 1 [2], .learn 8, .range 8 0]
theorem patient : Patient as := by
  intro pre a post g he hg
  have hi : pre.length < as.length := by rw [he]; simp
  have hpre : pre = as.take pre.length := by rw [he]; simp
  have ha : as[pre.length]? = some a := by rw [he]; simp
  have key : ∀ i < as.length, ∀ a, as[i]? = some a → ∀ g, a.user = some g → Act.learn g ∈ as.take i := by
    intro i hi
    have : i < 14 := hi
    interval_cases i <;> (intro a ha; cases ha; intro g hg; cases hg) <;> decide
  rw [hpre]
  exact key _ hi a ha g hg
example : ∃ s, run (start (coordinatorPlan [[1], [2]])) as = some s ∧ s.answers = [(7, .len 0 2), (7, .has 1 [2] true), (8, .keys 0 [[1], [2]])] ∧ s.died = false := by
  refine ⟨_, rfl, by decide, ?_⟩
  exact (C125_coordinator_after_dial_partial (servers := [[1], [2]]) (by decide) rfl patient).1
end Ex

end Resmix.DialRace
