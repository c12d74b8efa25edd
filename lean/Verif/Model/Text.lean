/-
Text helpers: src/util.cpp.  Bytes are numbers below 256.
-/
namespace Pvxs.Text

/-- one hexadecimal digit, lower case: std::hex -/
def hexDigit (n : Nat) : Nat := if n < 10 then 0x30 + n else 0x61 + (n - 10)

/-- src/util.cpp:217-229: the switch -/
def short (c : Nat) : Option Nat :=
  if c = 7 then some 0x61
  else if c = 8 then some 0x62
  else if c = 12 then some 0x66
  else if c = 10 then some 0x6e
  else if c = 13 then some 0x72
  else if c = 9 then some 0x74
  else if c = 11 then some 0x76
  else if c = 0x5c then some 0x5c
  else if c = 0x27 then some 0x27
  else if c = 0x22 then some 0x22
  else none

/-- src/util.cpp:215-243: one byte.  `char` may be signed: bytes from 0x80 are not between ' ' and '~' either way. -/
def escapeByte (c : Nat) : List Nat :=
  match short c with
  | some next => [0x5c, next]
  | none => if 0x20 ≤ c ∧ c ≤ 0x7e then [c] else [0x5c, 0x78, hexDigit (c / 16 % 16), hexDigit (c % 16)]

/-- src/util.cpp:208-245 `operator<<(std::ostream&, const Escaper&)` for a string which is not NULL -/
def escape (s : List Nat) : List Nat := s.flatMap escapeByte

/-- src/util.cpp:211-212: `none` is the null pointer -/
def escapePtr : Option (List Nat) → List Nat
  | none => [0x3c, 0x4e, 0x55, 0x4c, 0x4c, 0x3e]
  | some s => escape s

/-- src/util.cpp:809-826: one iteration of the loop of `splitLines`; the line, and where the next iteration starts -/
def splitStep : List Nat → List Nat × List Nat
  | [] => ([], [])
  | 10 :: 13 :: s => ([], s)
  | 13 :: 10 :: s => ([], s)
  | 10 :: s => ([], s)
  | 13 :: s => ([], 13 :: s)
  | c :: s => let (l, r) := splitStep s; (c :: l, r)

/-- src/util.cpp:809-826 `splitLines`: the loop ends, with these lines.  The text has no NUL. -/
inductive Splits : List Nat → List (List Nat) → Prop where
  | done : Splits [] []
  | line {s : List Nat} {ls : List (List Nat)} (h : s ≠ []) : Splits (splitStep s).2 ls → Splits s ((splitStep s).1 :: ls)

/-- a line of the output of strDiff -/
inductive Line where
  | left (s : List Nat)
  | right (s : List Nat)
  | both (s : List Nat)
deriving DecidableEq, Repr

/-- what a search ends with -/
inductive Found where
  | pair (a b : Nat)
  | nothing
deriving DecidableEq, Repr

/-- src/util.cpp:845-875: across one diagonal, from `c`; `a`, `b` are relative to the current positions, `l`, `r` what is left there.
`none`: nothing found on the diagonal. -/
def across (l r : List (List Nat)) (dist : Nat) : Nat → Nat → Option Found
  | 0, _ => none
  | n + 1, c =>
    if l.length ≤ c ∧ r.length ≤ dist - c then some .nothing
    else if l.length ≤ c ∨ r.length ≤ dist - c then across l r dist n (c + 1)
    else if l[c]? = r[dist - c]? then some (.pair c (dist - c))
    else across l r dist n (c + 1)

/-- src/util.cpp:844: out from the current positions; the loop has no bound: `none` is running out of `n` -/
def outward (l r : List (List Nat)) : Nat → Nat → Option Found
  | 0, _ => none
  | n + 1, dist =>
    match across l r dist (dist + 1) 0 with
    | some f => some f
    | none => outward l r n (dist + 1)

/-- src/util.cpp:883-890 -/
def trailing (l r : List (List Nat)) : List Line := l.map .left ++ r.map .right

/-- src/util.cpp:842-882: the outer loop, with what is left of both -/
def diffLoop : Nat → List (List Nat) → List (List Nat) → Option (List Line)
  | 0, _, _ => none
  | n + 1, l, r =>
    if l = [] ∨ r = [] then some (trailing l r)
    else
      match outward l r (l.length + r.length + 1) 0 with
      | none => none
      | some .nothing => some (trailing l r)
      | some (.pair a b) =>
        (diffLoop n (l.drop (a + 1)) (r.drop (b + 1))).map fun rest =>
          (l.take a).map .left ++ (r.take b).map .right ++ (l[a]?.toList).map .both ++ rest

/-- src/util.cpp:828-891 `strDiff`, after both texts were split -/
def diff (l r : List (List Nat)) : Option (List Line) := diffLoop (l.length + 1) l r

end Pvxs.Text
