import Verif.Model.GroupMon
/-
What a subscription to a group promises.
-/
namespace Pvxs.Spec.GroupMon
open Pvxs.GroupMon

/-- what was read of this part, and not yet sent, after these events -/
def fresh (es : List Ev) (it : Item) : Option Nat :=
  es.foldl (fun acc e => match e with
    | .read it' x => if it' = it then some x else acc
    | .post _ => none) none

/-- no update among these events -/
def Silent (es : List Ev) : Prop := ∀ u, Ev.post u ∉ es

/-- onStart() and the events do not run at the same time -/
def Calm (ops : List Op) : Prop := Op.startPost ∉ ops ∧ Op.startUnmark ∉ ops ∧ (∀ i m db, Op.valueRead i m db ∉ ops) ∧ Op.valuePost ∉ ops

/-- this is a start, or an event for a field which has a subscription for it -/
def Counts (fs : List MField) : Op → Prop
  | .start => True
  | .value i _ _ _ => ∃ f, fs[i]? = some f ∧ f.chan = true
  | .props i _ _ => ∃ f, fs[i]? = some f ∧ f.chan = true ∧ (f.type = .scalar ∨ f.type = .metadata)
  | _ => False

/-- every record can be read each time -/
def NoFaults (ops : List Op) : Prop :=
  (∀ i m db fails, Op.value i m db fails ∈ ops → ∀ j, fails j = false) ∧ (∀ i db fails, Op.props i db fails ∈ ops → fails = false)

/-- value events are for a change of the value (as the first one is) -/
def Whole (ops : List Op) : Prop := ∀ i m db fails, Op.value i m db fails ∈ ops → m.value = true

/-- the first events of all fields have come: one for the value, and one for the properties where these are mapped -/
def AllCame (fs : List MField) (ops : List Op) : Prop :=
  ∀ i f, fs[i]? = some f → f.chan = true →
    (∃ m db fails, Op.value i m db fails ∈ ops) ∧
    (f.type = .scalar ∨ f.type = .metadata → ∃ db fails, Op.props i db fails ∈ ops)

/-- the parts which a field of this mapping has -/
def HasPart (f : MField) : Part → Prop
  | .value => f.type = .scalar ∨ f.type = .plain ∨ f.type = .any ∨ f.type = .const
  | .alarm => f.type = .scalar ∨ f.type = .metadata
  | .props => f.type = .scalar
  | .form => f.type = .scalar

/-- what a complete first update has: of each field, the parts of the fields its events update; the properties of all fields; the constants -/
def Full (fs : List MField) (u : List (Item × Nat)) : Prop :=
  (∀ (i : Nat) (f : MField), fs[i]? = some f → f.chan = true → ∀ j ∈ f.triggers, ∀ g, fs[j]? = some g →
    ∀ p, HasPart g p → (p = .value ∨ p = .alarm) → ∃ x, (Item.part j p, x) ∈ u) ∧
  (∀ (i : Nat) (f : MField), fs[i]? = some f → f.chan = true → f.type = .scalar → (∃ x, (Item.part i .props, x) ∈ u) ∧ ∃ x, (Item.part i .form, x) ∈ u) ∧
  (∀ (i : Nat) (f : MField), fs[i]? = some f → f.type = .const → (Item.part i .value, f.cval) ∈ u) ∧
  ∃ x, (Item.options, x) ∈ u

end Pvxs.Spec.GroupMon
