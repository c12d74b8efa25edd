import Verif.Model.Udp
import Verif.Model.Ids
import Verif.Model.SMap
/-
Sources of a server, what they are asked, and the replies: src/server.cpp:80-150,670-745, src/serverchan.cpp:20-370.

Simplifications: what the application does in onSearch() and onCreate() is given as data; functions it sets as handlers are not empty; work
which is handed to `acceptor_loop` from other threads comes after onCreate(); log messages and counters are left out.
-/
namespace Pvxs.Source
open Wire

/-! ### the map of sources -/

/-- std::pair<int, std::string> -/
abbrev Key := Int × Str

/-- operator< of std::pair -/
def keyLt (a b : Key) : Bool := decide (a.1 < b.1) || (decide (a.1 = b.1) && strLt a.2 b.2)

/-- src/serverconn.h:243 `std::map<std::pair<int, std::string>, std::shared_ptr<Source>> sources` -/
abbrev Sources (α : Type) := List (Key × α)

/-- `m[k] = v` -/
def put (k : Key) (v : α) : Sources α → Sources α
  | [] => [(k, v)]
  | (k', v') :: m =>
    if k = k' then (k, v) :: m
    else if keyLt k k' then (k, v) :: (k', v') :: m
    else (k', v') :: put k v m

/-- `m.find(k)` -/
def find? (k : Key) (m : Sources α) : Option α := (m.find? fun p => p.1 = k).map (·.2)

/-- `m.erase(it)` -/
def erase (k : Key) (m : Sources α) : Sources α := m.filter fun p => p.1 ≠ k

/-- src/server.cpp:80-98; `none` if it throws.  A null pointer is `none`. -/
def addSource (m : Sources α) (name : Str) (src : Option α) (order : Int) : Option (Sources α) :=
  match src with
  | none => none
  | some src => match find? (order, name) m with
    | some _ => none
    | none => some (put (order, name) src m)

/-- src/server.cpp:100-116 -/
def removeSource (m : Sources α) (name : Str) (order : Int) : Option α × Sources α :=
  (find? (order, name) m, erase (order, name) m)

/-- src/server.cpp:118-132 -/
def getSource (m : Sources α) (name : Str) (order : Int) : Option α := find? (order, name) m

/-- src/server.cpp:134-150 -/
def listSource (m : Sources α) : List (Str × Int) := m.map fun p => (p.1.2, p.1.1)

/-- use of Server, a failure leaves it as it is -/
inductive Use (α : Type) where
  | add (name : Str) (src : Option α) (order : Int)
  | remove (name : Str) (order : Int)

def use (m : Sources α) : Use α → Sources α
  | .add name src order => (addSource m name src order).getD m
  | .remove name order => (removeSource m name order).2

/-! ### searches -/

/-- src/pvxs/source.h:34-75, what onSearch() of one source does: which of the names, by position, are claimed (until it returns, or throws) -/
abbrev Claims := List Str → Nat → Bool

/-- src/server.cpp:690-706, src/serverchan.cpp:213-223 -/
def claimStep (names : List Str) (flags : List Bool) (src : Claims) : List Bool := flags.mapIdx fun i c => c || src names i

def claims (srcs : List Claims) (names : List Str) : List Bool := srcs.foldl (claimStep names) (names.map fun _ => false)

/-- the identifiers of the claimed names -/
def claimedIds (flags : List Bool) (ids : List Nat) : List Nat := ((flags.zip ids).filter (·.1)).map (·.2)

/-- src/server.cpp:720-737, src/serverchan.cpp:236-251: the body of the reply -/
def replyBody (be : Bool) (guid : List Byte) (searchID port : Nat) (ids : List Nat) : List Byte :=
  let o : Out := { be := be, data := guid }
  let o := putInt o 4 searchID
  let o := putAddr [] o (.v4 0 0 0 0)
  let o := putInt o 2 port
  let o := putStr o [0x74, 0x63, 0x70]
  let o := putU8 o (if ids.length ≠ 0 then 1 else 0)
  let o := putInt o 2 ids.length
  (putPods 4 o ids).data

/-- src/conn.cpp:89-101 `enqueueTxBody`, src/server.cpp:739-741: a message of a server -/
def message (be : Bool) (cmd : Byte) (body : List Byte) : List Byte :=
  (putHeader { be := be } ⟨cmd, 0x40, 0, body.length⟩).data ++ body

/-- src/server.cpp:674-688: `sin_addr` and `sin_port` are looked at, whatever the family is.  For AF_INET6 the bytes of `sin_addr` are those
of `sin6_flowinfo`, which is zero in all addresses from text or from a message. -/
def ignores (ignoreList : List Udp.Ep) (src : Udp.Ep) : Bool :=
  ignoreList.any fun a =>
    (match src.addr, a.addr with
      | .v4 p q r s, .v4 p' q' r' s' => [p, q, r, s] == [p', q', r', s']
      | .v6 _, .v6 _ => true
      | .unspec, .unspec => true
      | _, _ => false) && (a.port == 0 || src.port == a.port)

structure Config where
  guid : List Byte
  tcpPort : Nat
  ignoreList : List Udp.Ep

/-- src/server.cpp:670-745 `Server::Pvt::onSearch`: what is sent, to `m.server` (src/udp_collector.cpp:381) -/
def onSearch (cfg : Config) (srcs : List Claims) (m : Udp.Search) : Option (List Byte) :=
  if ignores cfg.ignoreList m.server then none
  else
    let ids := claimedIds (claims srcs (m.names.map (·.1))) (m.names.map (·.2))
    if ids.length = 0 && !m.mustReply then none
    else some (message true 4 (replyBody true cfg.guid m.searchID cfg.tcpPort ids))

/-- src/serverchan.cpp:186-193: up to the first "tcp" -/
def getTcp : Nat → Dec Bool
  | 0 => fun i => (false, i)
  | n+1 => fun i =>
    if i.err then (false, i)
    else
      let p := getStr i
      if p.1 = [0x74, 0x63, 0x70] then (true, p.2) else getTcp n p.2

/-- src/serverchan.cpp:204-208 -/
def getNames : Nat → Dec (List (Str × Nat))
  | 0 => fun i => ([], i)
  | n+1 => fun i =>
    let id := getInt 4 i
    let name := getStr id.2
    let r := getNames n name.2
    ((name.1, id.1) :: r.1, r.2)

inductive Res where
  /-- an exception, which ends the connection -/
  | closed
  | silent
  | reply (bytes : List Byte)
deriving DecidableEq, Repr

/-- src/serverchan.cpp:177-211: identifier, flags, names -/
def getSearch : Dec (Nat × Byte × List (Str × Nat)) := fun i =>
  let id := getInt 4 i
  let flags := getU8 id.2
  let np := getSize false (flags.2.skip (3 + 16 + 2))
  let tcp := getTcp np.1 np.2
  let nc := getInt 2 tcp.2
  let ns := getNames nc.1 nc.2
  ((id.1, flags.1, ns.1), ns.2)

/-- src/serverchan.cpp:173-256 `handle_SEARCH`; `port`: of this interface -/
def handleSearch (sendBE : Bool) (guid : List Byte) (port : Nat) (srcs : List Claims) (i : In) : Res :=
  let m := getSearch i
  if m.2.err then .closed
  else
    let ids := claimedIds (claims srcs (m.1.2.2.map fun n => cstr n.1)) (m.1.2.2.map (·.2))
    if ids.length = 0 && !(m.1.2.1 &&& 1 != 0) then .silent
    else .reply (message sendBE 4 (replyBody sendBE guid m.1.1 port ids))

/-! ### channels -/

/-- what onCreate() of a source does with the ChannelControl -/
inductive Deed where
  | onOp | onRPC | onSubscribe | onClose
  /-- close(), to refuse -/
  | close
  /-- it is moved away, to be kept or dropped -/
  | take
deriving DecidableEq, Repr

/-- onCreate() of one source -/
structure Behav where
  deeds : List Deed
  throws : Bool := false

/-- src/serverconn.h:79-115 `ServerChan`, while it is created, with the source which set each handler; and the ChannelControl -/
structure Offer where
  destroyed : Bool := false
  onOp : Option Nat := none
  onRPC : Option Nat := none
  onSubscribe : Option Nat := none
  onClose : Option Nat := none
  taken : Bool := false
  /-- the sources whose onCreate() was called -/
  asked : List Nat := []
  /-- onCreate() was called with a null pointer -/
  null : Bool := false
deriving DecidableEq, Repr

/-- src/serverchan.cpp:72-155 `ServerChannelControl`, :47-63 `ServerChan::cleanup` -/
def deed (k : Nat) (c : Offer) : Deed → Offer
  | .onOp => { c with onOp := some k }
  | .onRPC => { c with onRPC := some k }
  | .onSubscribe => { c with onSubscribe := some k }
  | .onClose => if c.destroyed then c else { c with onClose := some k }
  | .close => if c.destroyed then c else { c with destroyed := true, onClose := none }
  | .take => { c with taken := true }

def Offer.handled (c : Offer) : Bool := c.onOp.isSome || c.onRPC.isSome || c.onSubscribe.isSome || c.onClose.isSome

/-- src/serverchan.cpp:287 -/
def ask (k : Nat) (b : Behav) (c : Offer) : Offer :=
  b.deeds.foldl (deed k) { c with asked := c.asked ++ [k], null := c.null || c.taken }

/-- src/serverchan.cpp:285-317: the sources in turn; whether it is claimed -/
def offer : Nat → List Behav → Offer → Bool × Offer
  | _, [], c => (false, c)
  | k, b :: bs, c =>
    let c := ask k b c
    if b.throws then offer (k + 1) bs c
    else if c.destroyed then (false, c)
    else if c.handled then (true, c)
    else if c.taken then (false, c)
    else offer (k + 1) bs c

/-- src/serverchan.cpp:337-351: a reply -/
structure Reply where
  cid : Nat
  sid : Nat
  status : Status
deriving DecidableEq, Repr

/-- "Refused to create Channel", "pvx:serv:refusechan:" -/
def refused : Status := ⟨3, "Refused to create Channel".toList.map Char.toUInt8, "pvx:serv:refusechan:".toList.map Char.toUInt8⟩

/-- "Too many Server channels", "pvx:serv:chanidoverflow:" -/
def tooMany : Status := ⟨2, "Too many Server channels".toList.map Char.toUInt8, "pvx:serv:chanidoverflow:".toList.map Char.toUInt8⟩

def replyBytes (be : Bool) (r : Reply) : List Byte :=
  message be 7 (putStatus (putInt (putInt { be := be } 4 r.cid) 4 r.sid) r.status).data

/-- one connection -/
structure Conn where
  tab : Ids.Tab := { next := 0x07050301 }
  replies : List Reply := []
  offers : List Offer := []
  closed : Bool := false
  /-- an assert() of ~ServerChan failed, src/serverchan.cpp:34-37 -/
  aborted : Bool := false

/-- src/serverchan.cpp:273-351: one name -/
def create (c : Conn) (cid : Nat) (srcs : List Behav) : Conn :=
  if c.tab.tab.length = 0xffffffff then { c with replies := c.replies ++ [⟨cid, 0xffffffff, tooMany⟩] }
  else match Ids.fresh c.tab.used c.tab.next with
    | none => { c with tab := { c.tab with stuck := true } }
    | some sid =>
      let r := offer 0 srcs {}
      let c := { c with tab := Ids.serverCreate c.tab r.1, offers := c.offers ++ [r.2] }
      if r.1 then { c with replies := c.replies ++ [⟨cid, sid, ⟨0, [], []⟩⟩] }
      else { c with replies := c.replies ++ [⟨cid, 0xffffffff, refused⟩], aborted := c.aborted || r.2.onClose.isSome }

/-- src/serverchan.cpp:269-364: the names; `beh`: what the sources do for a name -/
def createLoop (beh : Str → List Behav) : Nat → In → Conn → Conn
  | 0, i, c => if i.err then { c with closed := true } else c
  | n+1, i, c =>
    let cid := getInt 4 i
    let name := getStr cid.2
    if name.2.err then { c with closed := true }
    else if name.1 = [] then c
    else createLoop beh n name.2 (create c cid.1 (beh name.1))

/-- src/serverchan.cpp:258-369 `handle_CREATE_CHANNEL` -/
def handleCreate (beh : Str → List Behav) (i : In) (c : Conn) : Conn :=
  let n := getInt 2 i
  createLoop beh n.1 n.2 c

end Pvxs.Source
