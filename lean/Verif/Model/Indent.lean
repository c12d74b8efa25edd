/-
Indentation and level of detail of output streams: src/util.cpp:123-205, src/pvxs/util.h:129-171.

Streams, objects and the numbers given out by xalloc() are natural numbers; `iword` of a stream is a table which is 0 at first.  A constructor is two steps: the
reading of the index, then the rest; between them other threads, which work on other streams, may do anything.  A move of an object gives it another name.

Simplifications: iword() does not fail, and neither the values nor the number of indices overflow.  Nobody else writes to an index which they did not get from
xalloc().  After the reading, xalloc(), compare_exchange_strong() and the change of `iword` are one step.
-/
namespace Pvxs.Indent

/-- Indented or Detailed -/
inductive Kind where
  | indent
  | detail
deriving DecidableEq, Repr

structure Obj where
  id : Nat
  kind : Kind
  strm : Nat
  /-- `depth` of Indented; `lvl` of Detailed, which is the level asked for until the constructor is over, then the one to be restored -/
  val : Int
  /-- the index as it was read by the constructor -/
  seen : Option Nat
deriving DecidableEq, Repr

structure St where
  /-- `indentIndex` and `detailIndex`; `none` is INT_MIN -/
  idx : Kind → Option Nat := fun _ => none
  /-- what xalloc() gives next -/
  next : Nat := 0
  /-- iword() of a stream, at an index -/
  word : Nat → Nat → Int := fun _ _ => 0
  /-- objects within their constructor -/
  starting : List Obj := []
  /-- objects -/
  live : List Obj := []

def setWord (w : Nat → Nat → Int) (s i : Nat) (v : Int) : Nat → Nat → Int := fun s' i' => if s' = s ∧ i' = i then v else w s' i'

def setIdx (f : Kind → Option Nat) (k : Kind) (i : Nat) : Kind → Option Nat := fun k' => if k' = k then some i else f k'

/-- the constructors, load(): src/util.cpp:141-145, src/util.cpp:166-169 -/
def begin_ (s : St) (id : Nat) (k : Kind) (strm : Nat) (v : Int) : St :=
  { s with starting := ⟨id, k, strm, v, s.idx k⟩ :: s.starting }

/-- xalloc() and compare_exchange_strong(): the index to be used.  src/util.cpp:146-153, src/util.cpp:170-177 -/
def index (s : St) (o : Obj) : Nat × St :=
  match o.seen with
  | some i => (i, s)
  | none =>
    match s.idx o.kind with
    | none => (s.next, { s with next := s.next + 1, idx := setIdx s.idx o.kind s.next })
    | some i => (i, { s with next := s.next + 1 })

/-- the rest of the constructors: src/util.cpp:154, src/util.cpp:179-181 -/
def enter (s : St) (o : Obj) : St :=
  let r := index s o
  match o.kind with
  | .indent => { r.2 with word := setWord r.2.word o.strm r.1 (r.2.word o.strm r.1 + o.val), live := o :: s.live }
  | .detail => { r.2 with word := setWord r.2.word o.strm r.1 o.val, live := { o with val := r.2.word o.strm r.1 } :: s.live }

def finish (s : St) (id : Nat) : St :=
  match s.starting.find? (·.id = id) with
  | some o => enter { s with starting := s.starting.eraseP (·.id = id) } o
  | none => s

/-- the destructors, of an object which was not moved from: src/util.cpp:157-161, src/util.cpp:184-188 -/
def leave (s : St) (o : Obj) : St :=
  match s.idx o.kind with
  | none => s
  | some i =>
    match o.kind with
    | .indent => { s with word := setWord s.word o.strm i (s.word o.strm i - o.val) }
    | .detail => { s with word := setWord s.word o.strm i o.val }

def destroy (s : St) (id : Nat) : St :=
  match s.live.find? (·.id = id) with
  | some o => leave { s with live := s.live.eraseP (·.id = id) } o
  | none => s

/-- the move constructors; the destructor of the source then does nothing: src/pvxs/util.h:139-145, src/pvxs/util.h:155-161 -/
def move (s : St) (id id' : Nat) : St :=
  match s.live.find? (·.id = id) with
  | some o => { s with live := { o with id := id' } :: s.live.eraseP (·.id = id) }
  | none => s

/-- `iword` as `operator<<(indent)` and Detailed::level() read it: src/util.cpp:128-139, src/util.cpp:190-200 -/
def level (s : St) (k : Kind) (strm : Nat) : Int :=
  match s.idx k with
  | none => 0
  | some i => s.word strm i

/-- what `strm<<indent{}` prints: the loop goes from 0 up to `n` and ends when it is equal, so for `n < 0` it has no end (`none`): src/util.cpp:130-138,
src/utilpvt.h:114-140 -/
def printed (n : Int) : Option String :=
  if n < 0 then none else some (String.join (List.replicate n.toNat "    "))

inductive Op where
  | begin_ (id : Nat) (k : Kind) (strm : Nat) (v : Int)
  | finish (id : Nat)
  | destroy (id : Nat)
  | move (id id' : Nat)
  /-- xalloc() by someone else, who then writes `v` for a stream -/
  | other (strm : Nat) (v : Int)

def step (s : St) : Op → St
  | .begin_ id k strm v => begin_ s id k strm v
  | .finish id => finish s id
  | .destroy id => destroy s id
  | .move id id' => move s id id'
  | .other strm v => { s with next := s.next + 1, word := setWord s.word strm s.next v }

def run (s : St) (ops : List Op) : St := ops.foldl step s

/-- code with nested scopes: an object lives from its declaration to the end of the block -/
inductive Prog where
  | nop
  | seq (p q : Prog)
  | scope (k : Kind) (strm : Nat) (v : Int) (body : Prog)

/-- running it, in one thread -/
def exec : Prog → St → St
  | .nop, s => s
  | .seq p q, s => exec q (exec p s)
  | .scope k strm v body, s => destroy (exec body (finish (begin_ s 0 k strm v) 0)) 0

end Pvxs.Indent
