import Verif.Model.LinkScan
/-
Specification for C87: which records are processed when the target of PVA input links changes.
-/
namespace Pvxs.Spec.LinkScan
open Pvxs.LinkScan

variable {α : Type}

/-- what was delivered by the subscription -/
def arrived (es : List (Ev α)) : List (Item α) := es.filterMap fun e => match e with
  | .arrive it => some it
  | _ => none

/-- what is read through a link after these items; `none`: not connected -/
def cacheAfter (merge : α → α → α) (its : List (Item α)) : Option α :=
  its.foldl (fun v it => match it, v with
    | .update d, none => some d
    | .update d, some r => some (merge r d)
    | .disconnect, _ => none
    | .error, v => v) none

/-- the links attached, after an event -/
def attach (ls : List Link) : Ev α → List Link
  | .add l _ => ls ++ [l]
  | .remove a => ls.filter fun l => l.addr ≠ a
  | _ => ls
def attached (es : List (Ev α)) : List Link := es.foldl attach []

/-- a link which is attached has an address which no other link has -/
def FreshAddr (ls : List Link) : Ev α → Prop
  | .add l _ => ∀ m, m ∈ ls → m.addr ≠ l.addr
  | _ => True
def Distinct : List Link → List (Ev α) → Prop
  | _, [] => True
  | ls, e :: es => FreshAddr ls e ∧ Distinct (attach ls e) es

/-- the record of the link is to be processed on each update -/
def Wants (rs : Recs) (l : Link) : Prop :=
  l.input = true ∧ (l.proc = .cp ∨ l.proc = .cpp ∧ rs.passive l.record = true)
instance (rs : Recs) (l : Link) : Decidable (Wants rs l) := by unfold Wants; infer_instance

/-- what is done with a record -/
def actOn (rs : Recs) (r : Nat) : Act := if rs.pact r = true then .again r else .process r

/-- the lists of records which were processed, and what they read -/
def scans (outs : List (Out α)) : List (List Act × Option α) := outs.filterMap fun o => match o with
  | .scan as v => some (as, v)
  | .once _ => none

/-- the first of two links is processed first -/
def Before (a b : Link) : Prop :=
  (a.atomic = true ∧ b.atomic = false) ∨ (a.atomic = b.atomic ∧ a.monorder ≤ b.monorder)

end Pvxs.Spec.LinkScan
