import Verif.Model.Wire
/-
The buffers which messages are written to: `VectorOutBuf` and `EvOutBuf`, src/evhelper.cpp:937-986 and src/pvaproto.h:33-146; and how the encoders use them
(src/pvaproto.h:165-184, 408-420, 476-516).

Memory is given or refused by a list of answers, one for each time more is asked for; when that is used up all is given.  std::vector and evbuffer are not in /repo:
resize() keeps what is there; evbuffer_reserve_space() for n bytes gives one block of at least n bytes, or nothing, and evbuffer_commit_space() appends the first
bytes of that block to the evbuffer, and does not fail.

Simplifications: sizes are natural numbers.
-/
namespace Pvxs.OutBuf

abbrev Byte := UInt8

/-- what the encoders use of a buffer -/
structure Kind (σ : Type) where
  /-- `Buffer::size()` -/
  size : σ → Nat
  err : σ → Bool
  /-- `Buffer::fault()` -/
  fault : σ → σ
  /-- `refill(more)` -/
  refill : σ → Nat → Bool × σ
  /-- bytes are stored at `pos`, which moves on: needs size() of as much -/
  store : σ → List Byte → σ

/-! ### VectorOutBuf -/

structure Vec where
  backing : List Byte
  /-- `pos - backing.data()`; `limit` is the end of `backing` -/
  pos : Nat := 0
  err : Bool := false
  /-- whether resize() is to succeed -/
  answers : List Bool := []
deriving DecidableEq, Repr

/-- src/evhelper.cpp:949 -/
def roundUp (more : Nat) : Nat := ((more - 1) ||| 0xff) + 1

/-- the next of the answers -/
def nextOk (l : List Bool) : Bool := l.headD true

/-- src/evhelper.cpp:943-961 `VectorOutBuf::refill` -/
def Vec.refill (s : Vec) (more : Nat) : Bool × Vec :=
  if s.err then (false, s)
  else if nextOk s.answers then (true, { s with backing := s.backing ++ List.replicate (roundUp more) 0, answers := s.answers.drop 1 })
  else (false, { s with answers := s.answers.drop 1 })

/-- writing in place -/
def Vec.store (s : Vec) (bs : List Byte) : Vec :=
  { s with backing := s.backing.take s.pos ++ bs ++ s.backing.drop (s.pos + bs.length), pos := s.pos + bs.length }

def vec : Kind Vec where
  size s := s.backing.length - s.pos
  err s := s.err
  fault s := { s with err := true }
  refill := Vec.refill
  store := Vec.store

/-- src/pvaproto.h:127-128 `consumed`: what was written -/
def Vec.written (s : Vec) : List Byte := s.backing.take s.pos

/-- src/pvaproto.h:73-83 `Buffer::skip`, the first turn of the loop: the rest of `i` is taken after `pos = limit`, when size() is zero -/
def Vec.skip (s : Vec) (i : Nat) : Vec :=
  if i ≤ vec.size s then { s with pos := s.pos + i }
  else
    let t := Vec.refill { s with pos := s.backing.length } i
    -- after a refill(i) size() is at least i: the loop ends
    if t.1 then { t.2 with pos := t.2.pos + i } else { t.2 with err := true }

/-! ### EvOutBuf -/

structure Ev where
  /-- what is in the evbuffer -/
  backing : List Byte := []
  /-- the reserved block, if there is one: what was written to it, [base, pos), and the length of [pos, limit) -/
  block : Option (List Byte × Nat) := none
  err : Bool := false
  /-- what evbuffer_reserve_space() will do: none to fail, or give so much more than was asked for -/
  answers : List (Option Nat) := []
deriving DecidableEq, Repr

/-- src/evhelper.cpp:969-974: commit -/
def Ev.commit (s : Ev) : Ev := match s.block with
  | none => s
  | some (w, _) => { s with backing := s.backing ++ w, block := none }

/-- src/evhelper.cpp:976-984 -/
def Ev.reserve (s : Ev) (more : Nat) : Bool × Ev := match s.answers.headD (some 0) with
  | none => (false, { s with answers := s.answers.drop 1 })
  | some extra => (true, { s with block := some ([], more + extra), answers := s.answers.drop 1 })

/-- src/evhelper.cpp:965-986 `EvOutBuf::refill` -/
def Ev.refill (s : Ev) (more : Nat) : Bool × Ev :=
  if s.err then (false, s)
  else if more = 0 then (true, s.commit)
  else s.commit.reserve more

def Ev.size (s : Ev) : Nat := match s.block with
  | none => 0
  | some (_, n) => n

def Ev.store (s : Ev) (bs : List Byte) : Ev := match s.block with
  | none => s
  | some (w, n) => { s with block := some (w ++ bs, n - bs.length) }

def ev : Kind Ev where
  size := Ev.size
  err s := s.err
  fault s := { s with err := true }
  refill := Ev.refill
  store := Ev.store

/-- src/pvaproto.h:138-142: the constructor -/
def Ev.make (backing : List Byte) (isize : Nat) (answers : List (Option Nat)) : Ev := (Ev.refill { backing := backing, answers := answers } isize).2

/-- src/evhelper.cpp:963: the destructor -/
def Ev.finish (s : Ev) : List Byte := (Ev.refill s 0).2.backing

/-! ### what the encoders do -/

variable {σ : Type}

/-- src/pvaproto.h:70-72 `Buffer::ensure` -/
def Kind.ensure (k : Kind σ) (s : σ) (n : Nat) : Bool × σ :=
  if k.err s then (false, s) else if n ≤ k.size s then (true, s) else k.refill s n

/-- src/pvaproto.h:168-184, 365-376, 408-420: all or nothing -/
def Kind.write (k : Kind σ) (s : σ) (bs : List Byte) : σ :=
  let r := k.ensure s bs.length
  if r.1 then k.store r.2 bs else k.fault r.2

/-- several, one after the other -/
def Kind.writes (k : Kind σ) (s : σ) (l : List (List Byte)) : σ := l.foldl k.write s

/-- src/pvaproto.h:498: as many elements as there is room for -/
def chunk (size sz n : Nat) : Nat := min size (n * sz) / sz

/-- src/pvaproto.h:483-508, the loop for an array of elements of `sz` bytes, given in the order in which they are sent; the number of turns is bounded by that of the elements -/
def Kind.array (k : Kind σ) (sz : Nat) : Nat → σ → List (List Byte) → σ
  | 0, s, _ => s
  | fuel + 1, s, es =>
    if es = [] then s else
    let r := k.ensure s sz
    if r.1 then
      let n := chunk (k.size r.2) sz es.length
      k.array sz fuel (k.store r.2 (es.take n).flatten) (es.drop n)
    else k.fault r.2

end Pvxs.OutBuf
