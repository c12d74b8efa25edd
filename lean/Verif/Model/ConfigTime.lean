import Verif.Model.Config
import Verif.Model.RealParse
/-
The arithmetic which Model/Config.lean leaves open: the timeout as text, and its scaling by 4/3.
src/config.cpp:149 (`tmoScale`), :211-227 (`parse_timeout`), :481 and :619 (`updateDefs`).

A finite double is given by its value, so that the sign of zero is not kept.
-/
namespace Pvxs.Cfg
open Pvxs.RealParse Pvxs.RealScalar

/-- the value of a double -/
def ofBits (b : Nat) : Dbl :=
  let neg := b / 2 ^ 63 % 2 = 1
  if b / 2 ^ 52 % 2048 = 2047 then (if b % 2 ^ 52 = 0 then .inf neg else .nan)
  else .fin (if neg then -((magnitude b : Rat) / 2 ^ 1074) else (magnitude b : Rat) / 2 ^ 1074)

/-- IEEE 754: the result of an operation is the exact result, rounded to the nearest double; too large is infinite -/
def rounded (q : Rat) : Nat :=
  (if q < 0 then 2 ^ 63 else 0) + min (bitsOf (q.num.natAbs * 2 ^ 1074) q.den) infBits

/-- the double with this value -/
def toBits : Dbl → Nat
  | .nan => 2047 * 2 ^ 52 + 2 ^ 51
  | .inf neg => (if neg then 2 ^ 63 else 0) + infBits
  | .fin q => rounded q

/-- src/config.cpp:149 4.0/3.0 -/
def tmoScale : Rat := 6004799503160661 / 2 ^ 52

/-- parseTo<double> (src/util.cpp:757-773), `<<` (src/utilpvt.h:80-87), `temp*tmoScale` (src/config.cpp:222), `tcpTimeout/tmoScale` (:481, :619) -/
def flt (after : Bool) : Flt where
  read s := (parseDouble after s).map ofBits
  print x := showDouble (toBits x)
  scale q := ofBits (rounded (q * tmoScale))
  unscale
    | .fin q => ofBits (rounded (q / tmoScale))
    | x => x

end Pvxs.Cfg
