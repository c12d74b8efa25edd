import Verif.Model.SMap
/-
The channels of a client which are kept for later use: src/client.cpp:343-393,439-450,667-690,1302-1340.

Simplifications: all of this is on one thread; a channel is referred to by a number, the next one each time; the references to it, other than of the cache,
are those of operations; callbacks while channels are disconnected do not use the cache; `server` is a valid address; the order of entries is that in which
they were made, rather than that of their names.
-/
namespace Pvxs.Cache

/-- name, and server or "" -/
abbrev Key := Str × Str

/-- src/pvxs/client.h:574-578 -/
inductive Action where
  | clean | drop | disconnect
deriving DecidableEq, Repr

structure St where
  cache : List (Key × Nat) := []
  next : Nat := 0
  /-- one for each reference of an operation -/
  refs : List Nat := []
  garbage : Nat → Bool := fun _ => false
  running : Bool := true

inductive Op where
  /-- an operation begins -/
  | build (k : Key)
  /-- an operation on this channel is gone -/
  | release (id : Nat)
  /-- one pass, as by timer with "" and `clean` -/
  | pass (name : Str) (a : Action)
  /-- `Context::cacheClear` -/
  | clear (name : Str) (a : Action)
  /-- `Context::close` -/
  | close
deriving DecidableEq, Repr

structure Eff where
  /-- what build() returns, and for which name and server -/
  built : Option (Key × Nat) := none
  disconnected : List Nat := []
deriving DecidableEq, Repr

/-- src/client.cpp:343-393 `Channel::build`.  It throws after close(). -/
def build (k : Key) (s : St) : Option Nat × St :=
  if s.running = false then (none, s)
  else match s.cache.find? fun x => x.1 = k with
    | some (_, id) => (some id, { s with refs := id :: s.refs, garbage := fun i => if i = id then false else s.garbage i })
    | none => (some s.next, { s with cache := s.cache ++ [(k, s.next)], next := s.next + 1, refs := s.next :: s.refs })

/-- src/client.cpp:1302-1340 `cacheClean`, the loop: what is kept, the marks, what is disconnected -/
def passLoop (name : Str) (a : Action) (refs : List Nat) : List (Key × Nat) → (Nat → Bool) → List (Key × Nat) × (Nat → Bool) × List Nat
  | [], g => ([], g, [])
  | (k, id) :: l, g =>
    if name ≠ [] ∧ k.1 ≠ name then
      let r := passLoop name a refs l g
      ((k, id) :: r.1, r.2)
    else if a ≠ .clean ∨ 1 + refs.count id ≤ 1 then
      let g := fun i => if i = id then true else g i
      if a = .clean ∧ g id = false then
        let r := passLoop name a refs l g
        ((k, id) :: r.1, r.2)
      else
        let r := passLoop name a refs l g
        (r.1, r.2.1, if a = .disconnect then id :: r.2.2 else r.2.2)
    else
      let r := passLoop name a refs l g
      ((k, id) :: r.1, r.2)

def pass (name : Str) (a : Action) (s : St) : List Nat × St :=
  let r := passLoop name a s.refs s.cache s.garbage
  (r.2.2, { s with cache := r.1, garbage := r.2.1 })

def step (s : St) : Op → Eff × St
  | .build k => let r := build k s; ({ built := r.1.map fun id => (k, id) }, r.2)
  | .release id => ({}, { s with refs := s.refs.erase id })
  | .pass name a => let r := pass name a s; ({ disconnected := r.1 }, r.2)
  | .clear name a =>
    let r := pass name a s
    let r' := pass name a r.2
    ({ disconnected := r.1 ++ r'.1 }, r'.2)
  | .close => ({}, { s with cache := [], running := false })

def run : List Op → St → List Eff × St
  | [], s => ([], s)
  | o :: l, s =>
    let r := step s o
    let r' := run l r.2
    (r.1 :: r'.1, r'.2)

end Pvxs.Cache
