import Verif.Proofs.StackC
set_option autoImplicit false
/-
The ledger: where every request is that was taken from a round object and whose handler was not yet started.
-/
namespace Resmix.Stack
open Resmix.Mixer (Messages MixOutput)
open Resmix.Sender
open Resmix.Rrpc (SvcErr)
open Resmix.Rrpc.DirectSystem (Good Kept Frame Outcome frame_inner frame_call frame_enqueue frame_await frame_serve accepted Ran)
variable {ζ μ : Type} {c : Config ζ μ} {s s' : State ζ μ} {e : Event ζ μ}

/-- A worker still has to make the call (counted from the end of its list), or has made it. -/
inductive Loc
  | todo (h : Str) (i k : Nat)
  | call (h h' : Str) (j : Nat)
  deriving DecidableEq

/-- The call was made. -/
def Loc.made : Loc → Bool
  | .todo _ _ _ => false
  | .call _ _ _ => true

/-- The number of calls made whose handlers were not started. -/
def open_ (T : List (Loc × Request)) : Nat := T.countP fun x => x.1.made

/-- The handler for the call was started. -/
def Started (s : State ζ μ) (h h' : Str) (j : Nat) : Prop :=
  j ∈ (s.conns h h').runs.map Ran.call ∨ (∃ q, (s.conns h h').serving = some (j, q)) ∧ s.handling h h' ≠ none

/-- There is a request at this place. -/
def Live (s : State ζ μ) : Loc → Prop
  | .todo h i k => k < (s.worker h i).todo.length
  | .call h h' j => j < (s.conns h h').data.length ∧ ¬ Started s h h' j

/-- It is this request. -/
def Match (c : Config ζ μ) (s : State ζ μ) (rq : Request) : Loc → Prop
  | .todo h i k => (s.worker h i).todo.reverse[k]? = some rq
  | .call h h' j => rq.host = h' ∧ ∃ d, (s.conns h h').data[j]? = some d ∧ c.dec d.args = some (rq.round, rq.messages)

structure Ledger (c : Config ζ μ) (s : State ζ μ) (T : List (Loc × Request)) : Prop where
  keys : (T.map Prod.fst).Nodup
  live : ∀ l, l ∈ T.map Prod.fst ↔ Live s l
  fits : ∀ x ∈ T, Match c s x.2 x.1

theorem Ledger.same {T : List (Loc × Request)} (l : Ledger c s T) (h1 : ∀ h i, (s'.worker h i).todo = (s.worker h i).todo)
    (h2 : ∀ h h', (s'.conns h h').data = (s.conns h h').data) (h3 : ∀ h h' j, Started s' h h' j ↔ Started s h h' j) : Ledger c s' T where
  keys := l.keys
  live x := by
    rw [l.live x]
    cases x with
    | todo h i k => simp only [Live, h1]
    | call h h' j => simp only [Live, h2, h3]
  fits x hx := by
    have := l.fits x hx
    obtain ⟨x, rq⟩ := x
    cases x with
    | todo h i k => simpa only [Match, h1] using this
    | call h h' j => simpa only [Match, h2] using this

theorem eq_of_keys {T : List (Loc × Request)} (hk : (T.map Prod.fst).Nodup) {x : Loc} {a b : Request} (ha : (x, a) ∈ T) (hb : (x, b) ∈ T) : a = b := by
  induction T with
  | nil => cases ha
  | cons y T ih =>
    rw [List.map_cons, List.nodup_cons] at hk
    rcases List.mem_cons.1 ha with ha' | ha'
    · rcases List.mem_cons.1 hb with hb' | hb'
      · rw [← ha'] at hb'; cases hb'; rfl
      · exact absurd (List.mem_map.2 ⟨_, hb', by rw [← ha']⟩) hk.1
    · rcases List.mem_cons.1 hb with hb' | hb'
      · exact absurd (List.mem_map.2 ⟨_, ha', by rw [← hb']⟩) hk.1
      · exact ih hk.2 ha' hb'

/-- A worker takes a batch. -/
theorem Ledger.take {T : List (Loc × Request)} (l : Ledger c s T) {h : Str} {i : Nat} {rqs : List Request} (h0 : (s.worker h i).todo = [])
    (h1 : (s'.worker h i).todo = rqs) (h1' : ∀ h2 i2, ¬ (h2 = h ∧ i2 = i) → (s'.worker h2 i2).todo = (s.worker h2 i2).todo)
    (h2 : s'.conns = s.conns) (h3 : s'.handling = s.handling) :
    ∃ T', Ledger c s' T' ∧ T'.map Prod.snd = T.map Prod.snd ++ rqs ∧ open_ T' = open_ T := by
  let N : List (Loc × Request) := rqs.mapIdx fun p rq => (.todo h i (rqs.length - 1 - p), rq)
  have hN : ∀ x, x ∈ N ↔ ∃ p, rqs[p]? = some x.2 ∧ x.1 = .todo h i (rqs.length - 1 - p) := by
    intro x
    constructor
    · intro hx
      obtain ⟨p, hp⟩ := List.getElem?_of_mem hx
      simp only [N, List.getElem?_mapIdx, Option.map_eq_some_iff] at hp
      obtain ⟨rq, h4, rfl⟩ := hp
      exact ⟨p, h4, rfl⟩
    · rintro ⟨p, h4, h5⟩
      refine List.mem_of_getElem? (i := p) ?_
      simp only [N, List.getElem?_mapIdx, h4, Option.map_some]
      rw [← h5]
  have hkeyN : ∀ y, y ∈ N.map Prod.fst ↔ ∃ k, k < rqs.length ∧ y = .todo h i k := by
    intro y
    rw [List.mem_map]
    constructor
    · rintro ⟨x, hx, rfl⟩
      obtain ⟨p, h4, h5⟩ := (hN x).1 hx
      have := (List.getElem?_eq_some_iff.1 h4).1
      exact ⟨_, by omega, h5⟩
    · rintro ⟨k, hk, rfl⟩
      have hp : rqs.length - 1 - k < rqs.length := by omega
      exact ⟨(.todo h i k, rqs[rqs.length - 1 - k]), (hN _).2 ⟨rqs.length - 1 - k, List.getElem?_eq_getElem hp, by
        show Loc.todo h i k = Loc.todo h i _
        have : k = rqs.length - 1 - (rqs.length - 1 - k) := by omega
        rw [← this]⟩, rfl⟩
  have hst : ∀ h h' j, Started s' h h' j ↔ Started s h h' j := by intro _ _ _; simp only [Started, h2, h3]
  refine ⟨T ++ N, ⟨?_, ?_, ?_⟩, ?_, ?_⟩
  · rw [List.map_append, List.nodup_append]
    refine ⟨l.keys, ?_, ?_⟩
    · have : N.map Prod.fst = rqs.mapIdx fun p _ => Loc.todo h i (rqs.length - 1 - p) := by
        apply List.ext_getElem <;> simp [N]
      rw [this, List.nodup_iff_getElem?_ne_getElem?]
      intro p q hpq hq heq
      simp only [List.length_mapIdx] at hq
      rw [List.getElem?_mapIdx, List.getElem?_mapIdx, List.getElem?_eq_getElem (by omega : p < rqs.length), List.getElem?_eq_getElem hq] at heq
      simp at heq
      omega
    · rintro x hx y hy rfl
      obtain ⟨k, hk, rfl⟩ := (hkeyN x).1 hy
      have := (l.live _).1 hx
      simp [Live, h0] at this
  · intro y
    rw [List.map_append, List.mem_append, l.live, hkeyN]
    cases y with
    | todo h2 i2 k =>
      by_cases he : h2 = h ∧ i2 = i
      · obtain ⟨rfl, rfl⟩ := he
        simp [Live, h0, h1]
      · have : ¬ ∃ k', k' < rqs.length ∧ Loc.todo h2 i2 k = .todo h i k' := by
          rintro ⟨k', -, hh⟩; injection hh with a b; exact he ⟨a, b⟩
        simp only [Live, h1' h2 i2 he, this, or_false]
    | call h5 h6 j => simp [Live, h2, hst]
  · intro x hx
    rcases List.mem_append.1 hx with hx | hx
    · have hm := l.fits x hx
      have hl := (l.live x.1).1 (List.mem_map_of_mem hx)
      obtain ⟨y, rq⟩ := x
      cases y with
      | todo h2 i2 k =>
        by_cases he : h2 = h ∧ i2 = i
        · obtain ⟨rfl, rfl⟩ := he
          simp [Live, h0] at hl
        · simpa only [Match, h1' h2 i2 he] using hm
      | call h5 h6 j => simpa only [Match, h2] using hm
    · obtain ⟨p, h4, h5⟩ := (hN x).1 hx
      have := (List.getElem?_eq_some_iff.1 h4).1
      rw [h5]
      simp only [Match, h1]
      rw [List.getElem?_reverse (by omega)]
      rw [← h4]; congr 1; omega
  · rw [List.map_append]
    congr 1
    apply List.ext_getElem <;> simp [N]
  · unfold open_
    rw [List.countP_append]
    have : N.countP (fun x => x.1.made) = 0 := by
      rw [List.countP_eq_zero]
      intro x hx
      obtain ⟨p, h4, h5⟩ := (hN x).1 hx
      rw [h5]; simp [Loc.made]
    omega

/-- A worker makes its next call. -/
theorem Ledger.call {T : List (Loc × Request)} (l : Ledger c s T) {h : Str} {i : Nat} {rq : Request} {rest : List Request} {a : Bytes} {m : Str}
    (h0 : (s.worker h i).todo = rq :: rest) (h1 : (s'.worker h i).todo = rest)
    (h1' : ∀ h2 i2, ¬ (h2 = h ∧ i2 = i) → (s'.worker h2 i2).todo = (s.worker h2 i2).todo)
    (h2 : (s'.conns h rq.host).data = (s.conns h rq.host).data ++ [⟨m, a⟩]) (h2' : ∀ h1 h2, ¬ (h1 = h ∧ h2 = rq.host) → (s'.conns h1 h2).data = (s.conns h1 h2).data)
    (ha : c.dec a = some (rq.round, rq.messages)) (h3 : ∀ h1 h2 j, Started s' h1 h2 j ↔ Started s h1 h2 j)
    (h4 : ¬ Started s h rq.host (s.conns h rq.host).data.length) :
    ∃ T', Ledger c s' T' ∧ T'.map Prod.snd = T.map Prod.snd ∧
      open_ T' = open_ T + 1 := by
  let old : Loc := .todo h i rest.length
  let new : Loc := .call h rq.host (s.conns h rq.host).data.length
  have hold : (old, rq) ∈ T := by
    have hl : Live s old := by simp [old, Live, h0]
    obtain ⟨x, hx, hxo⟩ := List.mem_map.1 ((l.live old).2 hl)
    have := l.fits x hx
    obtain ⟨y, rq'⟩ := x
    simp only at hxo
    subst hxo
    simp only [old, Match, h0, List.reverse_cons] at this
    rw [List.getElem?_append_right (by simp)] at this
    simp at this
    subst this; exact hx
  have hnew : new ∉ T.map Prod.fst := by
    intro hn
    have := (l.live new).1 hn
    simp [new, Live] at this
  let f : Loc → Loc := fun x => if x = old then new else x
  have hfst : (T.map fun x => (f x.1, x.2)).map Prod.fst = (T.map Prod.fst).map f := by simp [List.map_map, Function.comp_def]
  have hmemf : ∀ y, y ∈ (T.map Prod.fst).map f ↔ y = new ∨ y ≠ old ∧ y ∈ T.map Prod.fst := by
    intro y
    rw [List.mem_map]
    constructor
    · rintro ⟨x, hx, rfl⟩
      by_cases he : x = old
      · left; simp [f, he]
      · right; simp [f, he, hx]
    · rintro (rfl | ⟨h5, h6⟩)
      · exact ⟨old, List.mem_map_of_mem hold, by simp [f]⟩
      · exact ⟨y, h6, by simp [f, h5]⟩
  refine ⟨T.map fun x => (f x.1, x.2), ⟨?_, ?_, ?_⟩, ?_, ?_⟩
  · rw [hfst]
    refine List.Nodup.map_on ?_ l.keys
    intro x hx y hy hxy
    simp only [f] at hxy
    split at hxy <;> split at hxy
    · simp_all
    · subst hxy; exact absurd hy hnew
    · subst hxy; exact absurd hx hnew
    · exact hxy
  · intro y
    rw [hfst, hmemf, l.live]
    cases y with
    | todo h5 i5 k =>
      by_cases he : h5 = h ∧ i5 = i
      · obtain ⟨rfl, rfl⟩ := he
        simp only [new, old, Live, h0, h1, List.length_cons, reduceCtorEq, false_or, ne_eq, Loc.todo.injEq, true_and]
        omega
      · have : ¬ Loc.todo h5 i5 k = old := by rintro hh; injection hh with a b; exact he ⟨a, b⟩
        simp [new, Live, h1' h5 i5 he, this]
    | call h5 h6 j =>
      by_cases he : h5 = h ∧ h6 = rq.host
      · obtain ⟨rfl, rfl⟩ := he
        simp only [new, old, Live, h2, h3, List.length_append, List.length_singleton, Loc.call.injEq, true_and, reduceCtorEq, ne_eq, not_false_eq_true]
        constructor
        · rintro (rfl | ⟨h7, h8⟩)
          · exact ⟨by omega, h4⟩
          · exact ⟨by omega, h8⟩
        · rintro ⟨h7, h8⟩
          by_cases hj : j = (s.conns h5 rq.host).data.length
          · exact .inl hj
          · exact .inr ⟨by omega, h8⟩
      · have : ¬ Loc.call h5 h6 j = new := by rintro hh; injection hh with a b; exact he ⟨a, b⟩
        simp [old, Live, h2' h5 h6 he, h3, this]
  · intro x hx
    obtain ⟨⟨y, rq'⟩, hy, rfl⟩ := List.mem_map.1 hx
    have hm := l.fits _ hy
    by_cases he : y = old
    · subst he
      obtain rfl := eq_of_keys l.keys hold hy
      simp only [f, if_true, new, Match, h2]
      exact ⟨trivial, ⟨m, a⟩, by simp, ha⟩
    · simp only [f, he, if_false]
      cases y with
      | todo h5 i5 k =>
        by_cases hh : h5 = h ∧ i5 = i
        · obtain ⟨rfl, rfl⟩ := hh
          simp only [Match, h0, List.reverse_cons] at hm
          simp only [Match, h1]
          have hk : k ≠ rest.length := fun h => he (by rw [h])
          have hlt := (List.getElem?_eq_some_iff.1 hm).1
          simp at hlt
          rwa [List.getElem?_append_left (by simp; omega)] at hm
        · simpa only [Match, h1' h5 i5 hh] using hm
      | call h5 h6 j =>
        by_cases hh : h5 = h ∧ h6 = rq.host
        · obtain ⟨rfl, rfl⟩ := hh
          obtain ⟨h7, d, h8, h9⟩ := hm
          refine ⟨h7, d, ?_, h9⟩
          rw [h2, List.getElem?_append_left (List.getElem?_eq_some_iff.1 h8).1]; exact h8
        · simpa only [Match, h2' h5 h6 hh] using hm
  · simp [List.map_map, Function.comp_def]
  · have : ∀ T : List (Loc × Request), (T.map Prod.fst).Nodup → (old, rq) ∈ T → open_ (T.map fun x => (f x.1, x.2)) = open_ T + 1 := by
      unfold open_
      intro T
      induction T with
      | nil => intro _ h; cases h
      | cons x T ih =>
        intro hk hm
        rw [List.map_cons, List.nodup_cons] at hk
        rw [List.map_cons, List.countP_cons, List.countP_cons]
        rcases List.mem_cons.1 hm with rfl | hm'
        · have hid : (T.map fun x => (f x.1, x.2)) = T := by
            conv_rhs => rw [← List.map_id T]
            refine List.map_congr_left fun x hx => ?_
            have : x.1 ≠ old := fun h => hk.1 (List.mem_map.2 ⟨x, hx, h⟩)
            simp [f, this]
          rw [hid]; simp [f, old, new, Loc.made]
        · rw [ih hk.2 hm']
          have : x.1 ≠ old := fun h => hk.1 (by rw [h]; exact List.mem_map_of_mem hm')
          simp only [f, this, if_false]; omega
    exact this T l.keys hold

/-- The handler of a call is started. -/
theorem Ledger.start {T : List (Loc × Request)} (l : Ledger c s T) {h h' : Str} {j : Nat} (hl : Live s (.call h h' j)) (h1 : s'.worker = s.worker)
    (h2 : s'.conns = s.conns) (h3 : ∀ h1 h2 k, Started s' h1 h2 k ↔ Started s h1 h2 k ∨ h1 = h ∧ h2 = h' ∧ k = j) :
    ∃ k rq, T[k]? = some (.call h h' j, rq) ∧ Match c s rq (.call h h' j) ∧ Ledger c s' (T.eraseIdx k) ∧ open_ (T.eraseIdx k) + 1 = open_ T := by
  obtain ⟨⟨y, rq⟩, hx, rfl⟩ := List.mem_map.1 ((l.live _).2 hl)
  obtain ⟨k, hk⟩ := List.getElem?_of_mem hx
  obtain ⟨hlt, hget⟩ := List.getElem?_eq_some_iff.1 hk
  have hp := (List.getElem_cons_eraseIdx_perm hlt).symm
  rw [hget] at hp
  have hp' := hp.map Prod.fst
  rw [List.map_cons] at hp'
  have hnd := hp'.nodup_iff.1 l.keys
  rw [List.nodup_cons] at hnd
  refine ⟨k, rq, hk, l.fits _ hx, ⟨hnd.2, ?_, ?_⟩, ?_⟩
  rotate_right
  · unfold open_
    rw [hp.countP_eq, List.countP_cons]; simp [Loc.made]
  · intro y
    have hy : y ∈ (T.eraseIdx k).map Prod.fst ↔ y ∈ T.map Prod.fst ∧ y ≠ .call h h' j := by
      rw [hp'.mem_iff, List.mem_cons]
      constructor
      · intro hy; exact ⟨.inr hy, fun he => hnd.1 (by rw [← he]; exact hy)⟩
      · rintro ⟨hy | hy, hne⟩
        · exact absurd hy hne
        · exact hy
    rw [hy, l.live]
    cases y with
    | todo h5 i5 k => simp [Live, h1]
    | call h5 h6 k =>
      simp only [Live, h2, h3, ne_eq, Loc.call.injEq]
      tauto
  · intro x hx
    have := l.fits x (List.mem_of_mem_eraseIdx hx)
    obtain ⟨y, rq⟩ := x
    cases y with
    | todo h5 i5 k => simpa only [Match, h1] using this
    | call h5 h6 k => simpa only [Match, h2] using this

end Resmix.Stack
