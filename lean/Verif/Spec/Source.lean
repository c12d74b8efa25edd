import Verif.Spec.Packet
import Verif.Model.Source
/-
Who is asked for a channel, and what the answers are.
-/
namespace Pvxs.Spec.Source
open Wire Packet Pvxs.Source

/-! ### the order of sources -/

/-- in the dictionary -/
def Before (a b : Str) : Prop := (∃ x t, b = a ++ x :: t) ∨ ∃ p x y s t, a = p ++ x :: s ∧ b = p ++ y :: t ∧ x < y

/-- by order, then by name -/
def Earlier (a b : Str × Int) : Prop := a.2 < b.2 ∨ (a.2 = b.2 ∧ Before a.1 b.1)

/-- which source is there under this name and order: a name which is taken stays so until it is
removed.  The latest use is first. -/
def registered : List (Use α) → Str → Int → Option α
  | [], _, _ => none
  | .add name src order :: earlier, n, o => if n = name ∧ o = order then (match registered earlier n o with | some s => some s | none => src)
      else registered earlier n o
  | .remove name order :: earlier, n, o => if n = name ∧ o = order then none else registered earlier n o

/-! ### what a source does when it is asked for a channel -/

/-- nothing -/
def Passes (b : Behav) : Prop := b.deeds = []

/-- it sets some handler, and does not close the channel -/
def Accepts (b : Behav) : Prop :=
  .close ∉ b.deeds ∧ (.onOp ∈ b.deeds ∨ .onRPC ∈ b.deeds ∨ .onSubscribe ∈ b.deeds ∨ .onClose ∈ b.deeds)

/-- it closes the channel, or takes it without setting a handler -/
def Refuses (b : Behav) : Prop := ¬Passes b ∧ ¬Accepts b

/-- the first source which does anything accepts; it has this position -/
def Gets (bs : List Behav) (k : Nat) : Prop := ∃ b, bs[k]? = some b ∧ Accepts b ∧ ∀ j < k, ∀ b', bs[j]? = some b' → Passes b'

/-- the first `n` are asked: one after another until one does something -/
structure Asks (bs : List Behav) (n : Nat) : Prop where
  le : n ≤ bs.length
  passed : ∀ j b, j + 1 < n → bs[j]? = some b → Passes b
  stopped : n < bs.length → ∃ j b, j + 1 = n ∧ bs[j]? = some b ∧ ¬Passes b

/-! ### messages -/

/-- a channel which is asked for -/
def IsItem (be : Bool) (x : Nat × Str) (bs : List Byte) : Prop := ∃ i s, IsNum be 4 x.1 i ∧ IsStr be x.2 s ∧ bs = i ++ s

structure IsCreate (be : Bool) (items : List (Nat × Str)) (bs : List Byte) : Prop where
  bytes : ∃ n x, IsNum be 2 items.length n ∧ IsSeq (IsItem be) items x ∧ bs = n ++ x

/-- the answer to one name: the channel is open, with a number which is not among `used`; or it is refused -/
structure Answers (beh : Str → List Behav) (used : List Nat) (x : Nat × Str) (r : Reply) : Prop where
  cid : r.cid = x.1
  opened : (∃ j, Gets (beh x.2) j) → r.status = ⟨0, [], []⟩ ∧ r.sid < 2 ^ 32 ∧ r.sid ∉ used
  refused : (¬∃ j, Gets (beh x.2) j) → r.status.code = 3 ∧ r.sid = 0xffffffff

/-- one answer for each, in order; the numbers of the channels which are open are all different -/
def AnswersAll (beh : Str → List Behav) : List Nat → List (Nat × Str) → List Reply → Prop
  | _, [], [] => True
  | used, x :: xs, r :: rs => Answers beh used x r ∧ AnswersAll beh (if r.status.code = 0 then r.sid :: used else used) xs rs
  | _, _, _ => False

/-- success is one byte; otherwise a code and two texts -/
def IsStatus (be : Bool) (s : Status) (bs : List Byte) : Prop :=
  (s = ⟨0, [], []⟩ ∧ bs = [255]) ∨ ∃ m t, IsStr be s.msg m ∧ IsStr be s.trace t ∧ bs = s.code :: (m ++ t)

/-- a message of a server -/
def IsServerMessage (be : Bool) (cmd : Byte) (body bs : List Byte) : Prop :=
  ∃ flags h, flags &&& 0x40 ≠ 0 ∧ flags &&& 0x31 = 0 ∧ IsHeader be cmd flags 2 body.length h ∧ bs = h ++ body

def IsCreateReply (be : Bool) (cid sid : Nat) (s : Status) (bs : List Byte) : Prop :=
  ∃ body c i t, IsServerMessage be 7 body bs ∧ IsNum be 4 cid c ∧ IsNum be 4 sid i ∧ IsStatus be s t ∧ body = c ++ (i ++ t)

/-- the reply to a search: the sender's address is to be used, "tcp", whether anything was found, which -/
def IsSearchReply (be : Bool) (guid : List Byte) (id port : Nat) (ids : List Nat) (bs : List Byte) : Prop :=
  ∃ body i a p n x, IsServerMessage be 4 body bs ∧ IsNum be 4 id i ∧ IsAddr (.v4 0 0 0 0) a ∧ IsNum be 2 port p ∧
    IsNum be 2 ids.length n ∧ IsSeq (IsNum be 4) ids x ∧
    body = guid ++ (i ++ (a ++ (p ++ ([3, 0x74, 0x63, 0x70] ++ ([if ids = [] then 0 else 1] ++ (n ++ x))))))

/-- the identifiers of the names which are claimed by some source, in order -/
def Claimed (srcs : List Claims) (names : List (Str × Nat)) (ids : List Nat) : Prop :=
  ids = (names.zipIdx.filter fun x => srcs.any fun src => src (names.map (·.1)) x.2).map fun x => x.1.2

/-- this address is to be ignored -/
def Listed (l : List Udp.Ep) (src : Udp.Ep) : Prop := ∃ a ∈ l, a.addr = src.addr ∧ (a.port = 0 ∨ a.port = src.port)

def V4 (a : Addr) : Prop := ∃ p q r s, a = .v4 p q r s

/-- what is asked by this search: the names, up to NUL, if it allows for "tcp" -/
def wanted (before : Bool) (protos : List (List Byte)) (names : List (Str × Nat)) : List (Str × Nat) :=
  if before = true ∨ [0x74, 0x63, 0x70] ∈ protos then names.map fun x => (x.1.takeWhile (· ≠ 0), x.2) else []

/-- a search through a connection; the address is not looked at -/
structure IsSearch (be : Bool) (id : Nat) (flags : Byte) (protos : List (List Byte)) (names : List (Nat × Str)) (bs : List Byte) : Prop where
  bytes : ∃ i r z p n x, IsNum be 4 id i ∧ r.length = 21 ∧ IsSize be protos.length z ∧ IsSeq (IsStr be) protos p ∧
    IsNum be 2 names.length n ∧ IsSeq (IsItem be) names x ∧ bs = i ++ ([flags] ++ (r ++ (z ++ (p ++ (n ++ x)))))

end Pvxs.Spec.Source
