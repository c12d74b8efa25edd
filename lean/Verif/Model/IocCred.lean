import Verif.Model.Handshake
import Verif.Model.Config
/-
The groups of an account, and the names by which a client is known to access security in an IOC: src/osgroups.cpp:54-125, src/serverconn.cpp:33-38,
ioc/credentials.cpp, ioc/securityclient.cpp:67-94.

Not modelled: Windows, RTEMS and vxWorks (src/osgroups.cpp:127-192); the order of a std::set; access security itself (epics-base), which is a parameter.
-/
namespace Pvxs.IocCred

/-- what is asked of the operating system -/
structure Sys where
  /-- getpwnam(): pw_name and pw_gid -/
  pwnam : Str → Option (Str × Nat)
  /-- the groups of a user, with a primary group -/
  groups : Str → Nat → List Nat
  /-- getgrouplist() leaves the count unchanged when there is not enough room -/
  keeps : Bool
  /-- getgrgid(): gr_name -/
  grgid : Nat → Option Str

/-- what getgrouplist() returns, the count it stores, and the IDs it stores -/
structure Listed where
  ret : Int
  count : Nat
  ids : List Nat

/-- getgrouplist() with room for `n` -/
def Sys.getgrouplist (s : Sys) (user : Str) (gid n : Nat) : Listed :=
  let l := s.groups user gid
  if l.length ≤ n then { ret := l.length, count := l.length, ids := l }
  else { ret := -1, count := if s.keeps then n else l.length, ids := [] }

/-- src/osgroups.cpp:86-114, beginning with room for `n`.  The first argument bounds the number of rounds; `none` when it is reached. -/
def listGroups (s : Sys) (user : Str) (gid : Nat) : Nat → Nat → Option (List Nat)
  | 0, _ => none
  | k+1, n =>
    let r := s.getgrouplist user gid n
    if 0 ≤ r.ret ∧ r.count ≤ n then some (r.ids.take r.count)
    else if 0 ≤ r.ret then some []
    else if r.count = n then listGroups s user gid k (n * 2)
    else if n < r.count then listGroups s user gid k r.count
    else some []

/-- src/osgroups.cpp:54-125 `osdGetRoles`; `none` when it does not end -/
def roles (s : Sys) (account : Str) : Option (List Str) :=
  match s.pwnam (Wire.cstr account) with
  | none => some [account]
  | some (name, gid) =>
    (listGroups s name gid ((s.groups name gid).length + 1) 16).map fun l => (gid :: l).filterMap s.grgid

/-- ioc/credentials.cpp:28-29 -/
def hostOf (peer : Str) : Str := peer.takeWhile (· != 0x3a)

/-- ioc/credentials.cpp:33-38: what follows the last '/' -/
def afterSlash (account : Str) : Str := (account.reverse.takeWhile (· != 0x2f)).reverse

/-- ioc/credentials.cpp:31-41 -/
def ownName (c : Handshake.Cred) : Str :=
  if c.method = Handshake.caName then afterSlash c.account else c.method ++ 0x2f :: c.account

/-- "role/" -/
def rolePrefix : Str := [0x72, 0x6f, 0x6c, 0x65, 0x2f]

/-- ioc/credentials.cpp:26-46 `Credentials::Credentials` -/
def names (s : Sys) (c : Handshake.Cred) : Option (List Str) :=
  (roles s c.account).map fun rs => ownName c :: rs.map fun r => rolePrefix ++ r

/-- ioc/securityclient.cpp:67-94 `SecurityClient::update` and `canWrite`.  `rule`: whether access security lets a user, on a host, write -/
def canWrite (rule : Str → Str → Bool) (names : List Str) (host : Str) : Bool :=
  names.any fun n => rule (Wire.cstr n) (Wire.cstr host)

end Pvxs.IocCred
