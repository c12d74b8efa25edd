import Verif.Spec.IocCred
import Verif.Spec.Handshake
/-! Property C75 -/
namespace Pvxs.Props.IocCred
open Pvxs Pvxs.IocCred Pvxs.Spec.IocCred
open Pvxs.Spec.Handshake (ca anonymous)

theorem listGroups_all (s : Sys) (user : Str) (gid : Nat) : ∀ (k n : Nat), 0 < n → (s.groups user gid).length < k + n →
    0 < k → listGroups s user gid k n = some (s.groups user gid)
  | 0, _, _, _, h => absurd h (by omega)
  | k+1, n, hn, hl, _ => by
    unfold listGroups
    simp only [Sys.getgrouplist]
    by_cases h : (s.groups user gid).length ≤ n
    · simp only [if_pos h]
      rw [if_pos ⟨by omega, h⟩, List.take_length]
    · simp only [if_neg h]
      rw [if_neg (by omega), if_neg (by omega)]
      cases hk : s.keeps with
      | true =>
        simp only [if_true]
        exact listGroups_all s user gid k (n * 2) (by omega) (by omega) (by omega)
      | false =>
        simp only [Bool.false_eq_true, if_false]
        rw [if_neg (by omega), if_pos (by omega)]
        exact listGroups_all s user gid k _ (by omega) (by omega) (by omega)

theorem roles_known (s : Sys) (account name : Str) (gid : Nat) (h : s.pwnam (Wire.cstr account) = some (name, gid)) :
    roles s account = some ((gid :: s.groups name gid).filterMap s.grgid) := by
  unfold roles
  rw [h]
  simp only
  rw [listGroups_all s name gid _ 16 (by decide) (by omega) (by omega)]
  rfl

theorem cstr_self (u : Str) (h0 : 0 ∉ u) : Wire.cstr u = u := by
  unfold Wire.cstr
  induction u with
  | nil => rfl
  | cons a u ih =>
    rw [List.takeWhile_cons_of_pos (by simp only [bne_iff_ne]; intro h; exact h0 (h ▸ List.mem_cons_self)),
      ih fun h => h0 (List.mem_cons_of_mem _ h)]

/-- `ClientCredentials::roles()` ends, and for an account known on this host is the groups the account belongs to, primary and supplementary, however many there are and
whichever of its two behaviours getgrouplist() has. -/
theorem C75_roles (s : Sys) (account : Str) (h0 : 0 ∉ account) (hk : Known s account) :
    ∃ rs, roles s account = some rs ∧ ∀ g, g ∈ rs ↔ InGroup s account g := by
  obtain ⟨⟨name, gid⟩, h⟩ := Option.isSome_iff_exists.mp hk
  refine ⟨_, roles_known s account name gid (by rw [cstr_self account h0]; exact h), ?_⟩
  intro g
  unfold InGroup
  rw [List.mem_filterMap]
  constructor
  · rintro ⟨i, hi, hg⟩
    exact ⟨name, gid, h, i, List.mem_cons.mp hi, hg⟩
  · rintro ⟨name', gid', h', i, hi, hg⟩
    rw [h] at h'
    obtain ⟨rfl, rfl⟩ := Prod.mk.inj (Option.some.inj h')
    exact ⟨i, List.mem_cons.mpr hi, hg⟩

/-- an account with 40 groups, and no other -/
def manySys (keeps : Bool) : Sys where
  pwnam u := if u = [0x75] then some ([0x75], 0) else none
  groups _ _ := List.range 40
  keeps := keeps
  grgid i := some [UInt8.ofNat i]

example : ∀ b, ((manySys b).pwnam [0x75]).isSome = true ∧ (roles (manySys b) [0x75]).map List.length = some 41 := by decide +kernel

theorem mem_takeWhile_imp {p : UInt8 → Bool} {a : UInt8} : ∀ {l : List UInt8}, a ∈ l.takeWhile p → p a = true
  | [], h => absurd h List.not_mem_nil
  | b :: l, h => by
    rw [List.takeWhile_cons] at h
    split at h
    · rcases List.mem_cons.mp h with rfl | h
      · assumption
      · exact mem_takeWhile_imp h
    · exact absurd h List.not_mem_nil

theorem afterSlash_spec (a : Str) : LastPart a (afterSlash a) := by
  unfold LastPart afterSlash
  have hn : (0x2f : UInt8) ∉ (a.reverse.takeWhile (· != 0x2f)) := by
    intro h
    have := mem_takeWhile_imp h
    simp at this
  refine ⟨fun h => hn (List.mem_reverse.mp h), ?_⟩
  have hsplit := List.takeWhile_append_dropWhile (p := fun c : UInt8 => c != 0x2f) (l := a.reverse)
  cases hd : a.reverse.dropWhile (· != 0x2f) with
  | nil =>
    left
    rw [hd, List.append_nil] at hsplit
    rw [hsplit, List.reverse_reverse]
  | cons c l =>
    right
    have hc : c = 0x2f := by
      have := List.head?_dropWhile_not (fun c : UInt8 => c != 0x2f) a.reverse
      rw [hd] at this
      simpa using this
    rw [hd] at hsplit
    refine ⟨l.reverse, ?_⟩
    have := congrArg List.reverse hsplit
    rw [List.reverse_reverse, List.reverse_append, List.reverse_cons, hc] at this
    rw [List.append_assoc, List.singleton_append] at this
    exact this.symm

/-- The names by which a client is known to access security: its own, which for "ca" is the account, or the last part of it when it has '/', and otherwise has the
method before it; and "role/g" for the groups g to which the account belongs on this host.
Missing: an account which is not known here has a role too, see `C75_role_claim`. -/
theorem C75_partial (s : Sys) (c : Handshake.Cred) (h0 : 0 ∉ c.account) (hk : Known s c.account) :
    ∃ ns own, names s c = some ns ∧ (∀ n, n ∈ ns ↔ n = own ∨ ∃ g, InGroup s c.account g ∧ n = isRole g) ∧
      (c.method = ca → LastPart c.account own) ∧ (c.method ≠ ca → own = c.method ++ 0x2f :: c.account) := by
  obtain ⟨rs, h1, h2⟩ := C75_roles s c.account h0 hk
  refine ⟨_, ownName c, by unfold names; rw [h1]; rfl, ?_, ?_, ?_⟩
  · intro n
    rw [List.mem_cons, List.mem_map]
    constructor
    · rintro (h | ⟨g, hg, rfl⟩)
      · exact .inl h
      · exact .inr ⟨g, (h2 g).mp hg, rfl⟩
    · rintro (h | ⟨g, hg, rfl⟩)
      · exact .inl h
      · exact .inr ⟨g, (h2 g).mpr hg, rfl⟩
  · intro h
    unfold ownName
    rw [if_pos (show c.method = Handshake.caName from h)]
    exact afterSlash_spec c.account
  · intro h
    unfold ownName
    rw [if_neg (show ¬ c.method = Handshake.caName from h)]

/-- A client which is "ca" has no name which is that of another method, or a role, except by its groups: whatever account it presents, its own name has no '/'. -/
theorem C75_own_name (c c' : Handshake.Cred) (hc : c.method = ca) (hc' : c'.method ≠ ca) (g : Str) :
    ownName c ≠ ownName c' ∧ ownName c ≠ isRole g := by
  have h : (0x2f : UInt8) ∉ ownName c := by
    unfold ownName
    rw [if_pos (show c.method = Handshake.caName from hc)]
    exact (afterSlash_spec c.account).1
  constructor
  · intro e
    rw [e] at h
    unfold ownName at h
    rw [if_neg (show ¬ c'.method = Handshake.caName from hc')] at h
    exact h (List.mem_append_right _ List.mem_cons_self)
  · intro e
    rw [e] at h
    exact h (by simp [isRole])

/-- "ops" is a group with no members, and not an account -/
def opsSys : Sys where
  pwnam u := if u = [0x75] then some ([0x75], 0) else none
  groups _ _ := [0]
  keeps := false
  grgid i := if i = 0 then some [0x75] else if i = 1 then some [0x6f, 0x70, 0x73] else none

/-- A client which presents an account unknown on this host has a role of this name, also when there is a group of this name, to which nobody belongs: any client may
take the role "ops" by saying that its user is "ops". -/
theorem C75_role_claim : ¬ (∀ (s : Sys) (c : Handshake.Cred), c.method = ca → 0 ∉ c.account → ∀ ns g, names s c = some ns → isRole g ∈ ns →
    InGroup s c.account g) := by
  intro h
  have := h opsSys { method := ca, account := [0x6f, 0x70, 0x73] } rfl (by decide) _ [0x6f, 0x70, 0x73] rfl (by decide)
  obtain ⟨name, gid, h1, _⟩ := this
  simp [opsSys] at h1

/-- and so, where only the role "ops" may write, this client may -/
example : (names opsSys { method := ca, account := [0x6f, 0x70, 0x73] }).map (canWrite (fun u _ => u == isRole [0x6f, 0x70, 0x73]) · []) = some true := by decide

/-- A client may write when one of its names may. -/
theorem C75_write (rule : Str → Str → Bool) (ns : List Str) (host : Str) (h0 : ∀ n ∈ ns, 0 ∉ n) (hh : 0 ∉ host) :
    canWrite rule ns host = true ↔ ∃ n ∈ ns, rule n host = true := by
  unfold canWrite
  rw [List.any_eq_true, cstr_self host hh]
  constructor
  · rintro ⟨n, hn, hr⟩
    rw [cstr_self n (h0 n hn)] at hr
    exact ⟨n, hn, hr⟩
  · rintro ⟨n, hn, hr⟩
    exact ⟨n, hn, by rw [cstr_self n (h0 n hn)]; exact hr⟩

theorem hostOf_append (a b : Str) (h : 0x3a ∉ a) : hostOf (a ++ 0x3a :: b) = a := by
  unfold hostOf
  induction a with
  | nil => simp
  | cons c a ih =>
    rw [List.cons_append, List.takeWhile_cons_of_pos (by simp only [bne_iff_ne]; intro e; exact h (e ▸ List.mem_cons_self)),
      ih fun h' => h (List.mem_cons_of_mem _ h')]

/-- The host name given to access security, for a client which connects from an IPv4 address, is this address. -/
theorem C75_host_partial (net : Cfg.Net) (ip port : Nat) (hp : port ≠ 0) (hc : 0x3a ∉ net.ntop4 ip) :
    hostOf (Cfg.showAddr net (.v4 ip port)) = net.ntop4 ip := by
  simp only [Cfg.showAddr]
  rw [if_pos hp]
  exact hostOf_append _ _ hc

/-- the text of IPv6 addresses below 10 -/
def tinyNet : Cfg.Net where
  pton4 _ := none
  pton6 _ := none
  ntop4 ip := showNat ip
  ntop6 ip := 0x3a :: 0x3a :: showNat ip
  resolve _ := none
  nameOf _ := []
  addressOf _ := .unspec
  externals := []
  broadcasts _ := []

example : (0x3a : UInt8) ∉ tinyNet.ntop4 1 ∧ tinyNet.ntop4 1 ≠ [] := by decide +kernel

/-- For IPv6 it is what is before the first ':', with a bracket: it is never the address, whatever the address, and for all addresses which begin with "::", as the
loopback does, it is the same, "[". -/
theorem C75_host_v6 (net : Cfg.Net) (ip port : Nat) (hc : 0x3a ∈ net.ntop6 ip) :
    hostOf (Cfg.showAddr net (.v6 ip port)) ≠ net.ntop6 ip ∧ (∀ r, net.ntop6 ip = 0x3a :: r → hostOf (Cfg.showAddr net (.v6 ip port)) = [0x5b]) := by
  constructor
  · intro e
    rw [← e] at hc
    have := mem_takeWhile_imp hc
    simp at this
  · intro r hr
    simp only [Cfg.showAddr]
    rw [hr]
    simp [hostOf]

example : tinyNet.ntop6 1 ≠ tinyNet.ntop6 2 ∧ hostOf (Cfg.showAddr tinyNet (.v6 1 5075)) = hostOf (Cfg.showAddr tinyNet (.v6 2 5075)) := by decide +kernel

end Pvxs.Props.IocCred
