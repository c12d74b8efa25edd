import Verif.Spec.PVRequest
import Verif.Model.ReqParse
/-
The text form of a request: words, its grammar, and what a request names.
-/
namespace Pvxs.Spec
open PVR (Tok Req isName)

/-- words: letters, digits, '.', '_' -/
def WordChar (c : Wire.Byte) : Prop :=
  (0x61 ≤ c ∧ c ≤ 0x7a) ∨ (0x41 ≤ c ∧ c ≤ 0x5a) ∨ (0x30 ≤ c ∧ c ≤ 0x39) ∨ c = 0x2e ∨ c = 0x5f

/-- the characters which stand for themselves -/
inductive Sign : Wire.Byte → Tok → Prop
  | lb : Sign 0x5b .lb
  | rb : Sign 0x5d .rb
  | lp : Sign 0x28 .lp
  | rp : Sign 0x29 .rp
  | comma : Sign 0x2c .comma
  | eq : Sign 0x3d .eq

/-- `field` and `record` are reserved -/
inductive Word : Str → Tok → Prop
  | field : Word [0x66, 0x69, 0x65, 0x6c, 0x64] .field
  | record : Word [0x72, 0x65, 0x63, 0x6f, 0x72, 0x64] .record
  | name (w : Str) (h1 : w ≠ [0x66, 0x69, 0x65, 0x6c, 0x64]) (h2 : w ≠ [0x72, 0x65, 0x63, 0x6f, 0x72, 0x64]) : Word w (.name w)

/-- the text `s` consists of the tokens `ts`, each of which may follow spaces; words are as long as possible; no space at the end -/
inductive Reads : List Wire.Byte → List Tok → Prop
  | nil : Reads [] []
  | sign (n : Nat) (c : Wire.Byte) (t : Tok) (s : List Wire.Byte) (ts : List Tok) (h : Sign c t) (hs : Reads s ts) :
      Reads (List.replicate n 0x20 ++ c :: s) (t :: ts)
  | word (n : Nat) (w : Str) (t : Tok) (s : List Wire.Byte) (ts : List Tok) (hne : w ≠ []) (hw : ∀ c ∈ w, WordChar c) (h : Word w t)
      (hend : ∀ c, s.head? = some c → ¬ WordChar c) (hs : Reads s ts) : Reads (List.replicate n 0x20 ++ (w ++ s)) (t :: ts)

/-- names and commas -/
inductive FieldList : List Tok → List Str → Prop
  | nil : FieldList [] []
  | comma (ts : List Tok) (fs : List Str) (h : FieldList ts fs) : FieldList (.comma :: ts) fs
  | name (w : Str) (ts : List Tok) (fs : List Str) (h : FieldList ts fs) : FieldList (.name w :: ts) (w :: fs)

/-- `k=v` separated by commas; one comma is allowed at the end -/
inductive OptionList : List Tok → List (Str × Str) → Prop
  | nil : OptionList [] []
  | one (k v : Str) : OptionList [.name k, .eq, .name v] [(k, v)]
  | more (k v : Str) (ts : List Tok) (os : List (Str × Str)) (h : OptionList ts os) :
      OptionList (.name k :: .eq :: .name v :: .comma :: ts) ((k, v) :: os)

/-- one thing a request says -/
inductive Said where
  | field (f : Str)
  | option (k v : Str)

/-- `name`, `field(...)`, `record[...]` in any number and order -/
inductive Sentence : List Tok → List Said → Prop
  | nil : Sentence [] []
  | name (w : Str) (ts : List Tok) (is : List Said) (h : Sentence ts is) : Sentence (.name w :: ts) (.field w :: is)
  | field (fts : List Tok) (fs : List Str) (ts : List Tok) (is : List Said) (hf : FieldList fts fs) (h : Sentence ts is) :
      Sentence (.field :: .lp :: fts ++ .rp :: ts) (fs.map .field ++ is)
  | record (ots : List Tok) (os : List (Str × Str)) (ts : List Tok) (is : List Said) (ho : OptionList ots os) (h : Sentence ts is) :
      Sentence (.record :: .lb :: ots ++ .rb :: ts) (os.map (fun p => .option p.1 p.2) ++ is)

/-- the components of a dotted name; superfluous dots mean nothing -/
inductive Parts : Str → List Str → Prop
  | nil : Parts [] []
  | dot (s : Str) (ps : List Str) (h : Parts s ps) : Parts (0x2e :: s) ps
  | last (w : Str) (hne : w ≠ []) (hw : (0x2e : Wire.Byte) ∉ w) : Parts w [w]
  | more (w s : Str) (ps : List Str) (hne : w ≠ []) (hw : (0x2e : Wire.Byte) ∉ w) (h : Parts s ps) : Parts (w ++ 0x2e :: s) (w :: ps)

/-- a name a field can have: does not start with a digit -/
def NoDigit (p : Str) : Prop := ∀ c, p.head? = some c → ¬ (0x30 ≤ c ∧ c ≤ 0x39)

/-- `ps` leads down a tree of members -/
inductive HasPath : List Member → List Str → Prop
  | here (ms : List Member) : HasPath ms []
  | down (ms : List Member) (m : Member) (ps : List Str) (hm : m ∈ ms) (h : HasPath m.children ps) : HasPath ms (m.name :: ps)

/-- the request names the path `ps`, or a path which continues it -/
def Asks (r : Req) (ps : List Str) : Prop := HasPath r.fields ps

/-- the requests a program can build -/
inductive Reached : Req → Prop
  | new : Reached {}
  | field (r r' : Req) (f : Str) (h : Reached r) (e : r.field f = .ok r') : Reached r'
  | record (r : Req) (k v : Str) (h : Reached r) : Reached (r.record k v)
  | parse (r r' : Req) (s : Str) (h : Reached r) (e : r.parse s = .ok r') : Reached r'

/-- `v` is the last value given to option `k` -/
def LastOption (is : List Said) (k v : Str) : Prop := ∃ pre post, is = pre ++ .option k v :: post ∧ ∀ v', Said.option k v' ∉ post

/-- the text of a request: a std::string up to its first NUL -/
def textOf (s : Str) : List Wire.Byte := s.takeWhile (· != 0)

end Pvxs.Spec
