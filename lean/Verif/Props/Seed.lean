import Verif.Model.Seed
import Verif.Props.Config
set_option autoImplicit false
/-
C100: secrecy of the keys of a created system.
-/
namespace Resmix.Config.Seed
open Tibe

theorem draws_length (D : Draw) (k pos : Nat) : (draws D k pos).1.length = k := by
  induction k generalizing pos with
  | zero => rfl
  | succ k ih => simp [draws, ih]

theorem vss_length (D : Draw) (d k pos : Nat) : (vssPolynomials D d k pos).1.length = k := by
  induction k generalizing pos with
  | zero => rfl
  | succ k ih => simp [vssPolynomials, ih]

theorem vss_degree (D : Draw) (d k pos : Nat) : ∀ p ∈ (vssPolynomials D d k pos).1, p.coefs.length = d + 1 := by
  induction k generalizing pos with
  | zero => intro p hp; simp [vssPolynomials] at hp
  | succ k ih =>
    intro p hp
    simp only [vssPolynomials, List.mem_cons] at hp
    rcases hp with rfl | hp
    · exact draws_length D _ _
    · exact ih _ p hp

/-- What an outsider computes who has the source, and knows the sizes of the systems the process created before, the size of this one, and the number of a server: its key for
`id`. Nothing of the system goes in. -/
def outsiderKey (B : Bls) (D : Draw) (before : List (Nat × Nat)) (servers degree server : Nat) (id : Bytes) : B.G2 :=
  match (systemPolys D servers degree (position D before)).1.2[server]? with
  | some p => p.eval 0 • B.hashG2 id
  | none => 0

/-- The system `cs` with the addresses `addrs` was created by a process that had created systems of the sizes `before`. -/
def CreatedAfter (B : Bls) (D : Draw) (before : List (Nat × Nat)) (addrs : List Str) (d : Nat) (cs : List ServerConfig) : Prop :=
  Created B addrs d (systemPolys D addrs.length d (position D before)).1.1 (systemPolys D addrs.length d (position D before)).1.2 cs

/-- C100 fails: an outsider decrypts everything that is encrypted for any server of any created system, for any id. -/
theorem C100_outsider_decrypts_refuted (B : Bls) (D : Draw) (before : List (Nat × Nat)) (addrs : List Str) (d : Nat) (cs : List ServerConfig)
    (h : CreatedAfter B D before addrs d cs) (sender receiver : ServerConfig) (hs : sender ∈ cs) (j : Nat) (hr : cs[j]? = some receiver)
    (snode : Node B) (hsn : CreateTIBENode B sender (.ok snode)) (r : Fr) (iv id msg : Bytes) (hiv : iv.length = 16) :
    ∃ c, snode.encryptFor r iv receiver.hostname id msg = .ok c ∧ (decrypt (outsiderKey B D before addrs.length d j id) c).1 = .ok msg := by
  obtain ⟨rnode, hrn⟩ : ∃ rnode, CreateTIBENode B receiver (.ok rnode) := by
    obtain ⟨order, ho⟩ : ∃ order : GoMap Str Bytes, order.Perm receiver.ibe.vssExponentPolynomials := ⟨_, List.Perm.refl _⟩
    obtain ⟨p, n, -, -, h2, -⟩ := Created.node h hr (res := createTIBENode B receiver order) ⟨order, ho, rfl⟩
    exact ⟨n, order, ho, h2.symm⟩
  obtain ⟨c, hc, hdec⟩ := C39_encrypt_decrypt B addrs d _ _ cs h sender receiver hs (List.mem_of_getElem? hr) snode rnode hsn hrn r iv id msg hiv
  refine ⟨c, hc, ?_⟩
  obtain ⟨p, n, hp, -, h2, -, hsec, -⟩ := Created.node h hr hrn
  injection h2 with h2; subst h2
  have : outsiderKey B D before addrs.length d j id = rnode.decrypter id := by
    simp only [outsiderKey, hp, Node.decrypter, hsec]
  rw [this]; exact hdec

/-- C100 fails: two systems, whatever their addresses, created as the first ones of two processes with the same sizes have the same keys: each server decrypts what is encrypted
for the server with its number in the other system. -/
theorem C100_same_keys_refuted (B : Bls) (D : Draw) (addrs addrs' : List Str) (d : Nat) (hlen : addrs.length = addrs'.length) (cs cs' : List ServerConfig)
    (h : CreatedAfter B D [] addrs d cs) (h' : CreatedAfter B D [] addrs' d cs') (j : Nat) (sc sc' : ServerConfig) (hj : cs[j]? = some sc) (hj' : cs'[j]? = some sc')
    (n n' : Node B) (hn : CreateTIBENode B sc (.ok n)) (hn' : CreateTIBENode B sc' (.ok n')) (id : Bytes) : n.decrypter id = n'.decrypter id := by
  obtain ⟨p, m, hp, -, h2, -, hsec, -⟩ := Created.node h hj hn
  injection h2 with h2; subst h2
  obtain ⟨p', m', hp', -, h2', -, hsec', -⟩ := Created.node h' hj' hn'
  injection h2' with h2'; subst h2'
  rw [← hlen, hp] at hp'
  injection hp' with hp'; subst hp'
  simp only [Node.decrypter, hsec, hsec']

/-- Such systems exist, for every list of distinct addresses, degree and history. -/
example (B : Bls) (D : Draw) (before : List (Nat × Nat)) (addrs : List Str) (d : Nat) (hnd : addrs.Nodup) (hn : addrs.length < 2 ^ 32) (hd : d < addrs.length) :
    ∃ cs, CreatedAfter B D before addrs d cs := by
  obtain ⟨cs, h, -⟩ := C39_all_built B addrs d (systemPolys D addrs.length d (position D before)).1.1 (systemPolys D addrs.length d (position D before)).1.2 hnd hn hd
    (vss_length D d _ _) (by
      intro p hp
      rcases List.mem_cons.1 hp with rfl | hp
      · exact draws_length D _ _
      · exact vss_degree D d _ _ p hp)
  exact ⟨cs, h⟩

end Resmix.Config.Seed
