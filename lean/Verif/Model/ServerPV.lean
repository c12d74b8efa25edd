import Verif.Model.Scalar
import Verif.Model.ValueOps
import Verif.Model.ServerConn
import Verif.Model.Source
/-
The PV "server" (src/serversource.cpp), StaticSource (src/sharedpv.cpp:471-618), and Server::addPV()/removePV() (src/server.cpp:172-190).

Simplifications: what a reply holds is an `Answer`, not the normative type around it; log messages are left out; SharedPV is a parameter.
-/
namespace Pvxs.ServerPV
open Wire

/-! ### StaticSource -/

/-- src/sharedpv.cpp:471-477: `pvs`, and `list`, the names which have been handed out last -/
structure Static (α : Type) where
  pvs : SMap α := []
  list : Option (List Str) := none

/-- src/sharedpv.cpp:568-582 `StaticSource::add`; `none` if it throws -/
def Static.add (s : Static α) (name : Str) (pv : α) : Option (Static α) :=
  match s.pvs.find? name with
  | some _ => none
  | none => some { pvs := s.pvs.insert name pv, list := none }

/-- src/sharedpv.cpp:584-604 `StaticSource::remove`: the PV which is closed -/
def Static.remove (s : Static α) (name : Str) : Option α × Static α :=
  match s.pvs.find? name with
  | none => (none, s)
  | some pv => (some pv, { pvs := s.pvs.filter fun p => p.1 ≠ name, list := none })

/-- src/sharedpv.cpp:478-488 `onSearch`, for one name -/
def Static.claims (s : Static α) (name : Str) : Bool := (s.pvs.find? name).isSome

/-- src/sharedpv.cpp:490-505 `onCreate`: the PV which the channel is attached to -/
def Static.create (s : Static α) (name : Str) : Option α := s.pvs.find? name

/-- src/sharedpv.cpp:512-518, `std::set` filled from the keys of `pvs`.  `held`: `list.use_count()!=1u` -/
def Static.cached (s : Static α) (held : Bool) : List Str :=
  match s.list, held with
  | some l, false => l
  | _, _ => (s.pvs.foldl (fun (m : SMap Unit) p => m.insert p.1 ()) []).map (·.1)

/-- src/sharedpv.cpp:507-524 `onList` -/
def Static.onList (s : Static α) (held : Bool) : List Str × Static α := (s.cached held, { s with list := some (s.cached held) })

/-- src/sharedpv.cpp:554-566 `close`: each PV is closed -/
def Static.close (s : Static α) : List α := s.pvs.map (·.2)

/-- src/sharedpv.cpp:606-618 `list` -/
def Static.listAll (s : Static α) : SMap α := s.pvs

inductive Use (α : Type) where
  | add (name : Str) (pv : α)
  | remove (name : Str)
  | onList (held : Bool)

/-- a call which throws leaves it as it is -/
def Static.use (s : Static α) : Use α → Static α
  | .add n pv => (s.add n pv).getD s
  | .remove n => (s.remove n).2
  | .onList held => (s.onList held).2

def Static.run (s : Static α) (us : List (Use α)) : Static α := us.foldl Static.use s

/-! ### onList() in more than one thread -/

/-- where a thread is in src/sharedpv.cpp:507-524.  The lock which is held there is the one for readers. -/
inductive At where
  | out
  | check     -- about to read `list`, :512
  | write     -- about to assign `list`, :517
  | copy      -- about to copy `list`, :520
deriving DecidableEq, Repr

/-- `set`: `list` is not null and not shared -/
structure Threads where
  at_ : Nat → At
  set : Bool

/-- thread `i` goes on -/
def Threads.step (s : Threads) (i : Nat) : Threads :=
  let move (a : At) (s : Threads) : Threads := { s with at_ := fun j => if j = i then a else s.at_ j }
  match s.at_ i with
  | .out => move .check s
  | .check => if s.set then move .copy s else move .write s
  | .write => move .copy { s with set := true }
  | .copy => move .out { s with set := false }            -- the copy is held by the caller

def Threads.run (s : Threads) (is : List Nat) : Threads := is.foldl Threads.step s

/-! ### the PV "server" -/

/-- what a reply holds -/
inductive Answer where
  | text (s : Str)                          -- NTScalar of String
  | texts (ss : List Str)                   -- NTScalar of String[]
  | info (implLang version : Str)
deriving DecidableEq, Repr

/-- what is called of ExecOp -/
inductive Act where
  | reply (a : Answer)
  | error (msg : Str)
deriving DecidableEq, Repr

/-- what a call of the handler comes to: the calls of `eop`, and whether it ends by an exception -/
structure Done where
  acts : List Act
  threw : Bool
deriving DecidableEq, Repr

mutual
/-- src/data.cpp:419-494 `Value::copyOut` to a std::string; `none` if it throws.  `show64`: `SB()<<` of a double -/
def textOf (show64 : Nat → Str) : Datum → Option Str
  | .real b => some (show64 b)
  | .int v => some (showInt v)
  | .uint n => some (showNat n)
  | .bool b => some (if b then trueText else falseText)
  | .str s => some s
  | .union _ v => textIn show64 v
  | .any v => textIn show64 v
  | .null => none
  | .unionNull => none
  | .pods _ => none
  | .strs _ => none
  | .vals _ => none
/-- src/data.cpp:479-492 -/
def textIn (show64 : Nat → Str) : Val → Option Str
  | .null => none
  | .mk _ cs => textFirst show64 cs
/-- the store of the root -/
def textFirst (show64 : Nat → Str) : List Cell → Option Str
  | [] => none
  | .mk _ x :: _ => textOf show64 x
end

/-- `v[name]` of a Value which may be null -/
def field (h : Option Handle) (name : Str) : Res (Option Handle) :=
  match h with
  | none => .ok none
  | some h => index true h name

def datumOf (h : Handle) : Datum := datumAt h.cells h.pos

/-- src/serversource.cpp:57-75: `std::set` of the names of all sources.  A source whose `names` is null is `none`. -/
def union (lists : List (Option (List Str))) : List Str :=
  ((lists.foldl (fun (m : SMap Unit) l => (l.getD []).foldl (fun (m : SMap Unit) n => m.insert n ()) m) []).map (·.1))

-- "query", "help", "op", "channels", "info", "cpp"
def queryName : Str := [0x71, 0x75, 0x65, 0x72, 0x79]
def helpName : Str := [0x68, 0x65, 0x6c, 0x70]
def opName : Str := [0x6f, 0x70]
def channelsText : Str := [0x63, 0x68, 0x61, 0x6e, 0x6e, 0x65, 0x6c, 0x73]
def infoText : Str := [0x69, 0x6e, 0x66, 0x6f]
def cppText : Str := [0x63, 0x70, 0x70]

/-- "Help, I really should write some help" -/
def helpText : Str :=
  [0x48, 0x65, 0x6c, 0x70, 0x2c, 0x20, 0x49, 0x20, 0x72, 0x65, 0x61, 0x6c, 0x6c, 0x79, 0x20, 0x73, 0x68, 0x6f, 0x75, 0x6c, 0x64, 0x20,
   0x77, 0x72, 0x69, 0x74, 0x65, 0x20, 0x73, 0x6f, 0x6d, 0x65, 0x20, 0x68, 0x65, 0x6c, 0x70]

/-- "Not implemented" -/
def notImplText : Str := [0x4e, 0x6f, 0x74, 0x20, 0x69, 0x6d, 0x70, 0x6c, 0x65, 0x6d, 0x65, 0x6e, 0x74, 0x65, 0x64]

/-- what the handler needs to know of the server: `names` of each source in `sources`, and version_str() -/
structure Env where
  lists : List (Option (List Str))
  version : Str
  show64 : Nat → Str

/-- src/serversource.cpp:55-93 -/
def perform (e : Env) (op : Str) : Act :=
  if op = channelsText then .reply (.texts (union e.lists))
  else if op = infoText then .reply (.info cppText e.version)
  else .error notImplText

/-- src/serversource.cpp:46-51: there is no `return` after the help has been sent -/
def helpActs (help : Option Handle) : List Act := if help.isSome then [.reply (.text helpText)] else []

/-- src/serversource.cpp:53 `args["op"].as<std::string>()`: throws for a null Value -/
def opText (e : Env) (op : Option Handle) : Option Str := op.bind fun h => textOf e.show64 (datumOf h)

/-- src/serversource.cpp:43-44 -/
def unwrap (Q args : Option Handle) : Option Handle := match Q with | some q => some q | none => args

/-- src/serversource.cpp:37-94, the function which is called for each RPC -/
def handler (e : Env) (raw : Val) : Res Done := do
  let args := raw.handle?
  let Q ← field args queryName
  let args := unwrap Q args
  let help ← field args helpName
  let op ← field args opName
  match opText e op with
  | none => .ok ⟨helpActs help, true⟩
  | some s => .ok ⟨helpActs help ++ [perform e s], false⟩

/-! ### from the handler to the client -/

/-- src/serverget.cpp:275-306: each is handed to `acceptor_loop`; whether there is a Value does not matter for an RPC -/
def Act.ev (k : Nat) : Act → Server.Ev
  | .reply _ => .reply k (some 0)
  | .error _ => .error k

/-- src/serverget.cpp:497-502: by then `ctrl` is empty, as it has been converted to the `std::unique_ptr<ExecOp>` which was passed to the handler.
So nothing is sent in case of an exception. -/
def Done.evs (k : Nat) (d : Done) : List Server.Ev := d.acts.map (Act.ev k)

/-- src/server.cpp:557-562: the sources of a new server -/
def builtins (server builtin : α) : Source.Sources α :=
  Source.put (-1, [0x5f, 0x5f, 0x62, 0x75, 0x69, 0x6c, 0x74, 0x69, 0x6e]) builtin
    (Source.put (-1, [0x5f, 0x5f, 0x73, 0x65, 0x72, 0x76, 0x65, 0x72]) server [])

end Pvxs.ServerPV
