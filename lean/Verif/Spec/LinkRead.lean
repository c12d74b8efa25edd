import Verif.Model.LinkRead
import Verif.Spec.ArrayConv
/-
Specification for C88: what a record reads through a PVA input link.
-/
namespace Pvxs.Spec.LinkRead
open Pvxs Pvxs.LinkRead
open Pvxs.ArrayConv (AType Reals Arr Elems)
open Pvxs.Spec.ArrayConv (Pattern Wraps units one Nearest Each intType realType)
open Pvxs.Spec.Scl (Holds InSigned InUnsigned Says)

/-- what the subscription said last -/
def now (v : Option View) : Ev → Option View
  | .item (.update w) => some w
  | .item (.disconnect _) => none
  | .read _ _ => v
/-- `none`: not connected -/
def current (es : List Ev) : Option View := es.foldl now none

/-- the numbers of a type of the database -/
def numbers : Dbr → Option AType
  | .char => some .i8 | .uchar => some .u8 | .short => some .i16 | .ushort => some .u16
  | .long => some .i32 | .ulong => some .u32 | .int64 => some .i64 | .uint64 => some .u64
  | .float => some .f32 | .double => some .f64 | .string => none | .other => none

/-- a string in a field of 40 bytes -/
def Text (s out : Str) : Prop :=
  out <+: s ∧ (0 : UInt8) ∉ out ∧ out.length ≤ 39 ∧ (out.length < 39 → out = s ∨ s[out.length]? = some 0)

/-- the integer `x`, as an integer of type `a` -/
def IntAs (a : AType) (x : Int) (y : Nat) : Prop :=
  Pattern a y ∧ ∃ u, Spec.ArrayConv.number a y = some u ∧ Wraps a u x

/-- `Shows v t n buf k`: if `n` elements of type `t` are asked for, these are the `k` elements which show
the value `v`. -/
inductive Shows (R : Reals) : V → Dbr → Nat → Buf → Nat → Prop where
  | int {c d x t a y n} : Spec.Scl.number d = some x → numbers t = some a → IntAs a x y → Shows R (.scalar c d) t n (.pods [y]) 1
  | trunc {c b u t a y n} : units 52 11 b = some u → numbers t = some a → IntAs a (u.tdiv (one 52 11)) y →
      Shows R (.scalar c (.real b)) t n (.pods [y]) 1
  | double {c d x y n} : Spec.Scl.number d = some x → Nearest 52 11 y x 1 → Shows R (.scalar c d) .double n (.pods [y]) 1
  | same {c b n} : Shows R (.scalar c (.real b)) .double n (.pods [b]) 1
  | text {c s out n} : Text s out → Shows R (.scalar c (.str s)) .string n (.strs [out]) 1
  | digits {c d x s out n} : Spec.Scl.number d = some x → Says s (decide (x < 0)) x.natAbs → Text s out →
      Shows R (.scalar c d) .string n (.strs [out]) 1
  /-- the first elements of the array, as converted by as<shared_array<const T>> -/
  | array {a ar ys t n} : numbers t = some a → Pvxs.ArrayConv.convertTo R a ar = .ok ⟨a, .pods ys⟩ →
      Shows R (.array ar) t n (.pods (ys.take n)) (min n ys.length)
  | strings {ss outs n} : Each Text (ss.take n) outs → Shows R (.array ⟨.str, .strs ss⟩) .string n (.strs outs) (min n ss.length)
  /-- the nearest float -/
  | float {c d x y n} : Spec.Scl.number d = some x → Nearest 23 8 y x 1 → Shows R (.scalar c d) .float n (.pods [y]) 1
  | narrow {c b u y n} : units 52 11 b = some u → Nearest 23 8 y u (one 52 11) → Shows R (.scalar c (.real b)) .float n (.pods [y]) 1
  | realIndex {i cs t a mb eb y n} : numbers t = some a → realType a = some (mb, eb) → Nearest mb eb y i 1 →
      Shows R (.enum i cs) t n (.pods [y]) 1
  | index {i cs t a y n} : numbers t = some a → IntAs a i y → Shows R (.enum i cs) t n (.pods [y]) 1
  | choice {i : Nat} {cs s out n} : cs[i]? = some s → Text s out → Shows R (.enum i cs) .string n (.strs [out]) 1

/-- the values which can be read as some type -/
inductive Readable (R : Reals) : V → Dbr → Prop where
  | int {c d x t a} : Spec.Scl.number d = some x → Holds d → numbers t = some a → intType a ≠ none → Readable R (.scalar c d) t
  | trunc {c b u t a w sg} : units 52 11 b = some u → numbers t = some a → intType a = some (w, sg) →
      (if sg then InSigned 8 (u.tdiv (one 52 11)) else InUnsigned 8 (u.tdiv (one 52 11))) → Readable R (.scalar c (.real b)) t
  | double {c d x} : Spec.Scl.number d = some x → Holds d → Readable R (.scalar c d) .double
  | same {c b} : Readable R (.scalar c (.real b)) .double
  | text {c s} : Readable R (.scalar c (.str s)) .string
  | digits {c d x} : Spec.Scl.number d = some x → (∀ b, d ≠ .bool b) → Readable R (.scalar c d) .string
  | array {a ar ys t} : numbers t = some a → Pvxs.ArrayConv.convertTo R a ar = .ok ⟨a, .pods ys⟩ → Readable R (.array ar) t
  | strings {ss} : Readable R (.array ⟨.str, .strs ss⟩) .string
  | float {c d x} : Spec.Scl.number d = some x → Holds d → x.natAbs < 2 ^ 53 → Readable R (.scalar c d) .float
  /-- a real of a magnitude below (2^25 - 1) * 2^103, which is not rounded to infinity -/
  | narrow {c b u} : units 52 11 b = some u → u.natAbs < (2 ^ 25 - 1) * 2 ^ (925 + 252) → Readable R (.scalar c (.real b)) .float
  | realIndex {i : Int} {cs t a p} : numbers t = some a → realType a = some p → i.natAbs < 2 ^ 31 → Readable R (.enum i cs) t
  | index {i cs t a} : numbers t = some a → intType a ≠ none → Readable R (.enum i cs) t
  | choice {i : Nat} {cs s} : cs[i]? = some s → Readable R (.enum i cs) .string

/-- a field of a number -/
def IsNum (d : Datum) (x : Int) : Prop := Spec.Scl.number d = some x ∧ Holds d

/-- the time stamp, from 1990 to 2106 -/
def TimeIs (sec ns : Option Datum) (st : Stamp) : Prop :=
  (∃ d s, sec = some d ∧ IsNum d s ∧ 631152000 ≤ s ∧ s < 2 ^ 32 ∧ (st.sec : Int) = s - 631152000) ∧
  ((ns = none ∧ st.nsec = 0) ∨ ∃ d m, ns = some d ∧ IsNum d m ∧ 0 ≤ m ∧ m < 2 ^ 32 ∧ (st.nsec : Int) = m)

/-- the alarm: no alarm, minor, major, invalid -/
def AlarmIs (sev msg : Option Datum) (k : Int) (m : Str) : Prop :=
  ((sev = none ∧ k = 0) ∨ ∃ d, sev = some d ∧ IsNum d k ∧ 0 ≤ k ∧ k ≤ 3) ∧
  ((k = 0 ∧ m = []) ∨ (k ≠ 0 ∧ ((msg = none ∧ m = []) ∨ msg = some (.str m))))

/-- the severity to be applied to the record -/
def applied (o : Opts) (k : Int) : Option Int :=
  match o.ms with
  | .nms => none
  | .ms => if k = 0 then none else some k
  | .msi => if k = 3 then some 3 else none

end Pvxs.Spec.LinkRead
