import Verif.Model.Res
/-
src/pvxs/sharedArray.h:94-422 `sa_base`, `shared_array`: references to arrays in one thread.

Simplifications: an array is always referred to as a whole (the constructors which alias part of another object are not modelled), memory is
never given back, and element types which are not plain data are not modelled.
-/
namespace Pvxs.Arr

/-- an element: `none` until it is first written (`new E[n]` does not initialise) -/
abbrev Elem := Option Nat

/-- a variable of type shared_array: `const` for shared_array<const E>; src/pvxs/sharedArray.h:99-100 -/
structure Ref where
  buf : Option Nat := none
  count : Nat := 0
  const : Bool := false
deriving DecidableEq

structure Heap where
  bufs : List (List Elem) := []
  vars : List Ref := []
deriving DecidableEq

inductive Op where
  /-- constructors which allocate: src/pvxs/sharedArray.h:262-289 -/
  | alloc (const : Bool) (vs : List Elem)
  /-- copy construction, assignment -/
  | copy (h : Nat)
  | assign (h g : Nat)
  /-- `h[i] = v`, `h.at(i) = v`, through an iterator -/
  | write (h i v : Nat)
  | clear (h : Nat)
  | resize (h n : Nat)
  | freeze (h : Nat)
  | thaw (h : Nat)

/-- `_data.use_count()` -/
def useCount (s : Heap) (b : Nat) : Nat := s.vars.countP (·.buf == some b)

/-- src/pvxs/sharedArray.h:170 `unique` -/
def unique (s : Heap) (r : Ref) : Bool :=
  match r.buf with
  | none => true
  | some b => decide (useCount s b ≤ 1)

/-- the content of an array -/
def data (s : Heap) (r : Ref) : List Elem :=
  match r.buf with
  | none => []
  | some b => (s.bufs[b]?).getD []

/-- src/pvxs/sharedArray.h:151-154 `clear` -/
def clearVar (s : Heap) (h : Nat) (r : Ref) : Heap := { s with vars := s.vars.set h { const := r.const } }

/-- a new array and a new variable -/
def allocVar (s : Heap) (const : Bool) (vs : List Elem) : Heap :=
  { bufs := s.bufs ++ [vs], vars := s.vars ++ [{ buf := some s.bufs.length, count := vs.length, const := const }] }

/-- one operation; `none` is a thrown exception.  An operation which does not compile (a write to const elements) is ignored. -/
def step (s : Heap) : Op → Option Heap
  | .alloc const vs => some (allocVar s const vs)
  | .copy h =>
    match s.vars[h]? with
    | some r => some { s with vars := s.vars ++ [r] }
    | none => some s
  | .assign h g =>
    match s.vars[h]?, s.vars[g]? with
    | some r, some r' => if r.const = r'.const then some { s with vars := s.vars.set h r' } else some s
    | _, _ => some s
  | .write h i v =>
    match s.vars[h]? with
    | some r =>
      if r.const then some s
      else match r.buf with
        | some b => some { s with bufs := s.bufs.modify b (·.set i (some v)) }
        | none => some s
    | none => some s
  | .clear h =>
    match s.vars[h]? with
    | some r => some (clearVar s h r)
    | none => some s
  | .resize h n =>
    -- src/pvxs/sharedArray.h:336-342
    match s.vars[h]? with
    | some r =>
      if r.const then some s
      else if !unique s r || n ≠ r.count then
        let vs := (data s r).take n
        let o := vs ++ List.replicate (n - vs.length) none
        some { bufs := s.bufs ++ [o], vars := s.vars.set h { buf := some s.bufs.length, count := n, const := r.const } }
      else some s
    | none => some s
  | .freeze h =>
    -- src/pvxs/sharedArray.h:404-417
    match s.vars[h]? with
    | some r =>
      if !unique s r then none
      else some { s with vars := s.vars.set h { const := r.const } ++ [{ r with const := true }] }
    | none => some s
  | .thaw h =>
    -- src/pvxs/sharedArray.h:428-443
    match s.vars[h]? with
    | some r =>
      if unique s r then some { s with vars := s.vars.set h { const := r.const } ++ [{ r with const := false }] }
      else some (allocVar (clearVar s h r) false ((data s r).take r.count))
    | none => some s

/-- operations one after the other; one which throws has no effect -/
def run (s : Heap) : List Op → Heap
  | [] => s
  | op :: ops => run ((step s op).getD s) ops

/-- src/pvxs/sharedArray.h:391-396 `at`: `ub` is a read beyond the array -/
def at? (s : Heap) (r : Ref) (i : Nat) : Res Elem :=
  if i > r.count then .throws "out_of_range"
  else match (data s r)[i]? with
    | some e => .ok e
    | none => .ub

end Pvxs.Arr
