import Verif.Model.TypeDesc
/-
Specification vocabulary for type descriptions (C10-C12).
-/
namespace Pvxs.Spec
open Pvxs

mutual
/-- every member of the definition was accepted by the constructor of `Member` -/
def Validated : Member → Prop
  | ⟨code, name, id, ch⟩ => Member.validate ⟨code, name, id, ch⟩ = .ok () ∧ ValidatedAll ch
def ValidatedAll : List Member → Prop
  | [] => True
  | m :: ms => Validated m ∧ ValidatedAll ms
end

mutual
/-- every string, and every number of children, fits the wire's 32 bit counts -/
def FitsWire : Member → Prop
  | ⟨_, name, id, ch⟩ => name.length < 2 ^ 32 ∧ id.length < 2 ^ 32 ∧ ch.length < 2 ^ 32 ∧ FitsWireAll ch
def FitsWireAll : List Member → Prop
  | [] => True
  | m :: ms => FitsWire m ∧ FitsWireAll ms
end

mutual
/-- levels of nesting: an array of Struct/Union contributes two, anything else one -/
def levels : Member → Nat
  | ⟨code, _, _, ch⟩ => (if code = .StructA ∨ code = .UnionA then 2 else 1) + levelsAll ch
def levelsAll : List Member → Nat
  | [] => 0
  | m :: ms => max (levels m) (levelsAll ms)
end

mutual
/-- siblings have different names and no name contains a dot -/
def DistinctNames : Member → Prop
  | ⟨_, _, _, ch⟩ => (ch.map Member.name).Nodup ∧ DistinctNamesAll ch
def DistinctNamesAll : List Member → Prop
  | [] => True
  | m :: ms => (0x2e : Wire.Byte) ∉ m.name ∧ DistinctNames m ∧ DistinctNamesAll ms
end

/-- node `d` at index `i` of table `t` is consistent with the rest of the table -/
structure NodeOK (t : List FieldDesc) (i : Nat) (d : FieldDesc) : Prop where
  /-- the sub-table of the node ends inside the table -/
  inside : i + d.size ≤ t.length
  /-- a member of a structure lies inside the structure's sub-table, and its parent index leads back -/
  child : d.code = .Struct → ∀ name off, (name, off) ∈ d.miter →
      0 < off ∧ ∃ c, t[i + off]? = some c ∧ c.parentIndex = off ∧ off + c.size ≤ d.size
  /-- the sub-tables of two members do not overlap -/
  disjoint : d.code = .Struct → ∀ (a b : Nat) na oa nb ob, d.miter[a]? = some (na, oa) → d.miter[b]? = some (nb, ob) → a < b →
      ∃ c, t[i + oa]? = some c ∧ oa + c.size ≤ ob
  /-- a member is found by its name -/
  byName : d.code = .Struct → ∀ name off, (name, off) ∈ d.miter → d.mlookup.find? name = some off
  /-- and a member of a member by the dotted path -/
  byPath : d.code = .Struct → ∀ name off c p o, (name, off) ∈ d.miter → t[i + off]? = some c → c.code = .Struct →
      c.mlookup.find? p = some o → d.mlookup.find? (name ++ [0x2e] ++ p) = some (off + o)
  /-- whatever is found by any name or path lies inside the node's sub-table -/
  found : d.code = .Struct → ∀ p o, d.mlookup.find? p = some o → 0 < o ∧ o < d.size
  /-- every node but the first belongs to the structure its parent index points at -/
  parent : 0 < i → 0 < d.parentIndex ∧ d.parentIndex ≤ i ∧
      ∃ p, t[i - d.parentIndex]? = some p ∧ p.code = .Struct ∧ ∃ name, (name, d.parentIndex) ∈ p.miter

/-- a table: the node count computed from the name table of the root is the real one, and all nodes are consistent -/
structure TableOK (t : List FieldDesc) : Prop where
  root : ∃ d, t[0]? = some d ∧ d.size = t.length ∧ d.parentIndex = 0
  node : ∀ i d, t[i]? = some d → NodeOK t i d

/-- a table together with all the tables nested in it: element types of Struct[] and Union[], and the choices of a
Union, each of which starts at the offset recorded for its name -/
inductive WellFormed : List FieldDesc → Prop
  | mk (t : List FieldDesc) (ok : TableOK t)
      (elem : ∀ (i : Nat) (d : FieldDesc), t[i]? = some d → d.code = .StructA ∨ d.code = .UnionA → WellFormed d.members)
      (elemCode : ∀ (i : Nat) (d : FieldDesc), t[i]? = some d → d.code = .StructA ∨ d.code = .UnionA →
          ∃ e : FieldDesc, d.members[0]? = some e ∧ e.code = d.code.scalarOf)
      (choice : ∀ (i : Nat) (d : FieldDesc), t[i]? = some d → d.code = .Union → ∀ name off, (name, off) ∈ d.miter →
          d.mlookup.find? name = some off ∧ ∃ e : FieldDesc, d.members[off]? = some e ∧ off + e.size ≤ d.members.length)
      (choiceTable : ∀ (i : Nat) (d : FieldDesc), t[i]? = some d → d.code = .Union → ∀ name off, (name, off) ∈ d.miter →
          ∀ e : FieldDesc, d.members[off]? = some e → WellFormed ((d.members.drop off).take e.size)) :
      WellFormed t

/-- the member names recorded in a table: distinct among siblings, none with a dot; also in nested tables -/
inductive NamesOK : List FieldDesc → Prop
  | mk (t : List FieldDesc) (distinct : ∀ d ∈ t, (d.miter.map (·.1)).Nodup)
      (undotted : ∀ d ∈ t, ∀ p ∈ d.miter, (0x2e : Wire.Byte) ∉ p.1)
      (nested : ∀ d ∈ t, NamesOK d.members) : NamesOK t

/-- what decoding one type does to the state of a connection: the bytes of one message, its byte order, and the
resulting cache -/
def afterMessage (c : TypeStore) (msg : Bool × List Wire.Byte) : TypeStore :=
  (getTypeTop c { be := msg.1, rest := msg.2 }).1.2

/-- the cache after any sequence of messages -/
def afterMessages (c : TypeStore) (msgs : List (Bool × List Wire.Byte)) : TypeStore := msgs.foldl afterMessage c

/-- "define key k as (type bytes)" and "reference key k" -/
def defineMsg (be : Bool) (k : Nat) (ty : List Wire.Byte) : List Wire.Byte :=
  0xfd :: ((if be then [UInt8.ofNat (k / 256), UInt8.ofNat k] else [UInt8.ofNat k, UInt8.ofNat (k / 256)]) ++ ty)
def refMsg (be : Bool) (k : Nat) : List Wire.Byte :=
  0xfe :: (if be then [UInt8.ofNat (k / 256), UInt8.ofNat k] else [UInt8.ofNat k, UInt8.ofNat (k / 256)])

end Pvxs.Spec
