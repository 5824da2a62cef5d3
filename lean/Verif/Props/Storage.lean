import Verif.Model.Storage
import Verif.Proofs.Strings
import Verif.Props.Generate
set_option autoImplicit false
/-
C94, C95: stored messages.
-/
namespace Resmix.Storage

theorem dot_not_mem_dec (n : Nat) : (46 : UInt8) ∉ dec n := by
  intro h; have := dec_digits n _ h; simp at this

/-- C94: different numbers of clients or different rounds have different files. -/
theorem C94_own_file {n r n' r' : Nat} (h : fileName n r = fileName n' r') : n = n' ∧ r = r' := by
  simp only [fileName, List.append_assoc, List.cons_append, List.nil_append] at h
  obtain ⟨h1, h2⟩ := append_sep_inj (dot_not_mem_dec r) (dot_not_mem_dec r') h
  simp only [List.cons.injEq, true_and] at h2
  obtain ⟨h3, -⟩ := append_sep_inj (dot_not_mem_dec n) (dot_not_mem_dec n') h2
  exact ⟨dec_inj h3, dec_inj h1⟩

/-- The events that (may) write the file of `n` clients and round `r`, with what they generated. -/
def about (n r : Nat) : Ev → Option (List Pair)
  | .call n' r' gen => if n' = n ∧ r' = r then some gen else none
  | .crash n' r' gen _ => if n' = n ∧ r' = r then some gen else none

theorem step_file (J : Json) (fs : Files) (e : Ev) (n r : Nat) :
    step J fs e (fileName n r) = match fs (fileName n r), about n r e with
      | some c, _ => some c
      | none, none => none
      | none, some gen => match e with
        | .call _ _ _ => some (J.marshal gen)
        | .crash _ _ _ k => some ((J.marshal gen).take k) := by
  have hname : ∀ n' r', ¬ (n' = n ∧ r' = r) → fileName n r ≠ fileName n' r' := by
    intro n' r' h he
    obtain ⟨rfl, rfl⟩ := C94_own_file he
    exact h ⟨rfl, rfl⟩
  cases e with
  | call n' r' gen =>
    simp only [step, loadOrCreate, about]
    by_cases h : n' = n ∧ r' = r
    · obtain ⟨rfl, rfl⟩ := h
      cases hf : fs (fileName n' r') with
      | some c => simp [hf]
      | none => simp [Files.write]
    · rw [if_neg h]
      cases hf : fs (fileName n' r') with
      | some c => simp only; cases fs (fileName n r) <;> rfl
      | none => simp only [Files.write, if_neg (hname n' r' h)]; cases fs (fileName n r) <;> rfl
  | crash n' r' gen k =>
    simp only [step, interrupted, about]
    by_cases h : n' = n ∧ r' = r
    · obtain ⟨rfl, rfl⟩ := h
      cases hf : fs (fileName n' r') with
      | some c => simp [hf]
      | none => simp [Files.write]
    · rw [if_neg h]
      cases hf : fs (fileName n' r') with
      | some c => simp only; cases fs (fileName n r) <;> rfl
      | none => simp only [Files.write, if_neg (hname n' r' h)]; cases fs (fileName n r) <;> rfl

/-- A file once there stays as it is. -/
theorem run_file (J : Json) (evs : List Ev) (fs : Files) (n r : Nat) (c : Bytes) (h : fs (fileName n r) = some c) : run J fs evs (fileName n r) = some c := by
  induction evs generalizing fs with
  | nil => exact h
  | cons e evs ih =>
    refine ih _ ?_
    rw [step_file, h]

/-- C94 fails with crashes: if the first call for `n` clients and round `r` dies while it writes the file, all later calls with these arguments fail,
for ever. -/
theorem C94_crash_refuted (J : Json) (fs : Files) (n r : Nat) (gen : List Pair) (k : Nat) (hfs : fs (fileName n r) = none) (hk : k < (J.marshal gen).length)
    (evs : List Ev) (gen' : List Pair) : (loadOrCreate J (run J fs (.crash n r gen k :: evs)) n r gen').2 = .error jsonErr := by
  have h : run J fs (.crash n r gen k :: evs) (fileName n r) = some ((J.marshal gen).take k) := by
    refine run_file J evs _ n r _ ?_
    simp [step_file, hfs, about]
  simp only [loadOrCreate, h, loadMessages, J.cut gen k hk]

/-- C94 fails for a second system: a generator for another system (other servers, other keys) called in the same directory with the same arguments gets the
messages of the first. -/
theorem C94_other_system_refuted (J : Json) (fs : Files) (n r : Nat) (mine theirs : List Pair) (hfs : fs (fileName n r) = none) :
    (loadOrCreate J (loadOrCreate J fs n r theirs).1 n r mine).2 = .ok theirs := by
  simp [loadOrCreate, hfs, Files.write, loadMessages, J.round_trip]

/-- What one event of the history generates is a possible result of `generateOnions`: `Gen n r x`. -/
def Honest (Gen : Nat → Nat → List Pair → Prop) (e : Ev) : Prop := ∀ n r gen, about n r e = some gen → Gen n r gen

/-- The event is an interrupted call for `n` clients and round `r`. -/
def Crashes (n r : Nat) (e : Ev) : Prop := ∃ gen k, e = .crash n r gen k

/-- C94, the part that holds, for all histories of completed and interrupted calls in a directory that is used for one system only: a call that returns messages
returns messages generated for its number of clients and its round (whatever other rounds are stored), later calls with the same arguments return the same
messages, and only an interrupted call with the same arguments can make it fail. -/
theorem C94_history_partial (J : Json) (Gen : Nat → Nat → List Pair → Prop) (evs : List Ev) (hev : ∀ e ∈ evs, Honest Gen e) (n r : Nat) (gen : List Pair)
    (hgen : Gen n r gen) :
    (∀ x, (loadOrCreate J (run J (fun _ => none) evs) n r gen).2 = .ok x → Gen n r x ∧
      ∀ later gen', (loadOrCreate J (run J (loadOrCreate J (run J (fun _ => none) evs) n r gen).1 later) n r gen').2 = .ok x) ∧
    ((∀ e ∈ evs, ¬ Crashes n r e) → ∃ x, (loadOrCreate J (run J (fun _ => none) evs) n r gen).2 = .ok x) := by
  have key : ∀ (evs : List Ev), (∀ e ∈ evs, Honest Gen e) → ∀ fs : Files,
      (fs (fileName n r) = none ∨ (∃ x, Gen n r x ∧ fs (fileName n r) = some (J.marshal x))) ∨
        (∃ x k, k < (J.marshal x).length ∧ fs (fileName n r) = some ((J.marshal x).take k)) →
      ((run J fs evs (fileName n r) = none ∨ (∃ x, Gen n r x ∧ run J fs evs (fileName n r) = some (J.marshal x))) ∨
        (∃ x k, k < (J.marshal x).length ∧ run J fs evs (fileName n r) = some ((J.marshal x).take k))) := by
    intro evs
    induction evs with
    | nil => intro _ fs h; exact h
    | cons e evs ih =>
      intro he fs h
      refine ih (fun e' h' => he e' (List.mem_cons_of_mem _ h')) (step J fs e) ?_
      rw [step_file]
      rcases h with (h | ⟨x, hx, h⟩) | ⟨x, k, hk, h⟩
      · rw [h]
        cases ha : about n r e with
        | none => exact Or.inl (Or.inl rfl)
        | some g =>
          have hg := he e List.mem_cons_self n r g ha
          cases e with
          | call n' r' gen' => exact Or.inl (Or.inr ⟨g, hg, rfl⟩)
          | crash n' r' gen' k =>
            by_cases hk : k < (J.marshal g).length
            · exact Or.inr ⟨g, k, hk, rfl⟩
            · exact Or.inl (Or.inr ⟨g, hg, by simp only; rw [List.take_of_length_le (by omega)]⟩)
      · rw [h]; exact Or.inl (Or.inr ⟨x, hx, rfl⟩)
      · rw [h]; exact Or.inr ⟨x, k, hk, rfl⟩
  have key2 : ∀ (evs : List Ev), (∀ e ∈ evs, ¬ Crashes n r e) → ∀ fs : Files,
      (fs (fileName n r) = none ∨ ∃ x, fs (fileName n r) = some (J.marshal x)) →
      run J fs evs (fileName n r) = none ∨ ∃ x, run J fs evs (fileName n r) = some (J.marshal x) := by
    intro evs
    induction evs with
    | nil => intro _ fs h; exact h
    | cons e evs ih =>
      intro he fs h
      refine ih (fun e' h' => he e' (List.mem_cons_of_mem _ h')) (step J fs e) ?_
      rw [step_file]
      rcases h with h | ⟨x, h⟩
      · rw [h]
        cases ha : about n r e with
        | none => exact Or.inl rfl
        | some g =>
          cases e with
          | call n' r' gen' => exact Or.inr ⟨g, rfl⟩
          | crash n' r' gen' k =>
            exfalso
            simp only [about] at ha
            split at ha
            · next h' => exact he _ List.mem_cons_self ⟨gen', k, by rw [h'.1, h'.2]⟩
            · cases ha
      · rw [h]; exact Or.inr ⟨x, rfl⟩
  constructor
  · intro x hx
    have hc : ∀ c, (loadOrCreate J (run J (fun _ => none) evs) n r gen).1 (fileName n r) = some c → loadMessages J c = .ok x →
        ∀ later gen', (loadOrCreate J (run J (loadOrCreate J (run J (fun _ => none) evs) n r gen).1 later) n r gen').2 = .ok x := by
      intro c h1 h2 later gen'
      have := run_file J later _ n r c h1
      rw [loadOrCreate, this]
      exact h2
    rcases key evs hev (fun _ => none) (Or.inl (Or.inl rfl)) with (h | ⟨y, hy, h⟩) | ⟨y, k, hk, h⟩
    · have hx' : gen = x := by simpa [loadOrCreate, h] using hx
      subst hx'
      refine ⟨hgen, hc (J.marshal gen) (by simp [loadOrCreate, h, Files.write]) (by simp [loadMessages, J.round_trip])⟩
    · have hx' : y = x := by simpa [loadOrCreate, h, loadMessages, J.round_trip] using hx
      subst hx'
      exact ⟨hy, hc (J.marshal y) (by simp [loadOrCreate, h]) (by simp [loadMessages, J.round_trip])⟩
    · simp [loadOrCreate, h, loadMessages, J.cut y k hk] at hx
  · intro hcr
    rcases key2 evs hcr (fun _ => none) (Or.inl rfl) with h | ⟨y, h⟩
    · exact ⟨gen, by simp [loadOrCreate, h]⟩
    · exact ⟨y, by simp [loadOrCreate, h, loadMessages, J.round_trip]⟩

open Resmix.Onion in
/-- The messages are those of `n` clients, with their onions for round `r`, by the generator `G` (C20, C21 say what these are). -/
def FromGenerator {B : Bls} (S : Sha3) (G : Generator B) (n r : Nat) (x : List Pair) : Prop :=
  x.length = n ∧ ∀ p ∈ x, p.message.length = 258 ∧ ∃ rnd, GenerateOnion S G p.message r rnd (.ok p.onions)

/-- C94 for a generator: in a directory used for one system only, whatever was generated, loaded and interrupted before, the messages a call returns are those of
its number of clients, with their onions for its round. -/
theorem C94_generator_partial {B : Bls} (J : Json) (S : Onion.Sha3) (G : Onion.Generator B) (evs : List Ev) (hev : ∀ e ∈ evs, Honest (FromGenerator S G) e) (n r : Nat)
    (gen : List Pair) (hgen : FromGenerator S G n r gen) (x : List Pair) (hx : (loadOrCreate J (run J (fun _ => none) evs) n r gen).2 = .ok x) :
    FromGenerator S G n r x := ((C94_history_partial J (FromGenerator S G) evs hev n r gen hgen).1 x hx).1

/-- C95 fails: an empty array of messages (LoadOrCreateMessages with 0 clients) crashes AllOnions. -/
theorem C95_empty_refuted (J : Json) (r : Nat) :
    (loadOrCreate J (fun _ => none) 0 r []).2 = .ok [] ∧ allOnions [] = .error .panic := ⟨rfl, rfl⟩

/-- C95, the part that holds: with at least one message, AllOnions returns the onions of all messages, in order; AllMessages always returns all messages. -/
theorem C95_nonempty_partial (m : List Pair) :
    (m ≠ [] → allOnions m = .ok (m.map (·.onions)).flatten) ∧
    (allMessages m).length = m.length ∧ ∀ (i : Nat) p, m[i]? = some p → (allMessages m)[i]? = some p.message := by
  refine ⟨?_, by simp [allMessages], ?_⟩
  · intro h
    cases m with
    | nil => exact absurd rfl h
    | cons p m => simp [allOnions, List.flatMap_def]
  · intro i p hp
    simp [allMessages, hp]

/- The contract of encoding/json is consistent: an encoding with this contract exists. -/

/-- A prefix-free encoding of lists: every element announced by a 1, the end marked by a 0. -/
def encList {α : Type} (f : α → Bytes) : List α → Bytes
  | [] => [0]
  | x :: l => 1 :: (f x ++ encList f l)

/-- No encoding is the beginning of another one. -/
def PrefixFree {α : Type} (f : α → Bytes) : Prop := ∀ x y s t, f x ++ s = f y ++ t → x = y ∧ s = t

theorem encList_free {α : Type} {f : α → Bytes} (hf : PrefixFree f) : PrefixFree (encList f) := by
  intro x
  induction x with
  | nil =>
    intro y s t h
    cases y with
    | nil => simpa [encList] using h
    | cons b y => simp [encList] at h
  | cons a x ih =>
    intro y s t h
    cases y with
    | nil => simp [encList] at h
    | cons b y =>
      simp only [encList, List.cons_append, List.cons.injEq, true_and, List.append_assoc] at h
      obtain ⟨rfl, h2⟩ := hf a b _ _ h
      obtain ⟨rfl, h3⟩ := ih y s t h2
      exact ⟨rfl, h3⟩

theorem encByte_free : PrefixFree fun b : UInt8 => [b] := by
  intro x y s t h
  simpa using h

def encPair (p : Pair) : Bytes := encList (fun b => [b]) p.message ++ encList (encList fun b => [b]) p.onions

theorem encPair_free : PrefixFree encPair := by
  intro x y s t h
  simp only [encPair, List.append_assoc] at h
  obtain ⟨h1, h2⟩ := encList_free encByte_free _ _ _ _ h
  obtain ⟨h3, h4⟩ := encList_free (encList_free encByte_free) _ _ _ _ h2
  cases x; cases y
  simp_all

open Classical in
/-- A codec with the laws of `Json`. -/
noncomputable def exampleJson : Json where
  marshal := encList encPair
  unmarshal b := if h : ∃ x, encList encPair x = b then some h.choose else none
  round_trip x := by
    have h : ∃ y, encList encPair y = encList encPair x := ⟨x, rfl⟩
    rw [dif_pos h]
    have := h.choose_spec
    rw [((encList_free encPair_free) h.choose x [] [] (by simpa using this)).1]
  cut x k hk := by
    rw [dif_neg]
    rintro ⟨y, hy⟩
    have h1 : encList encPair y ++ (encList encPair x).drop k = encList encPair x ++ [] := by
      rw [hy, List.take_append_drop, List.append_nil]
    obtain ⟨rfl, h2⟩ := encList_free encPair_free _ _ _ _ h1
    simp at h2
    omega

/-- A history with an interrupted call for one round, and calls for another round that are not affected. -/
example (Gen : Nat → Nat → List Pair → Prop) (g1 g2 : List Pair) (h1 : Gen 5 1 g1) (h2 : Gen 5 2 g2) :
    (∀ e ∈ [Ev.crash 5 1 g1 7, .call 5 2 g2], Honest Gen e) ∧ ∀ e ∈ [Ev.crash 5 1 g1 7, .call 5 2 g2], ¬ Crashes 5 2 e := by
  refine ⟨?_, ?_⟩
  · intro e he n r gen ha
    simp only [List.mem_cons, List.not_mem_nil, or_false] at he
    rcases he with rfl | rfl <;> simp only [about] at ha <;> split at ha <;> simp_all
  · intro e he
    simp only [List.mem_cons, List.not_mem_nil, or_false] at he
    rcases he with rfl | rfl <;> rintro ⟨gen, k, h⟩ <;> cases h

end Resmix.Storage
