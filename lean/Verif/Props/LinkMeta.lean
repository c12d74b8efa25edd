import Verif.Spec.LinkMeta
import Verif.Props.ValueOps
/-
C102: limits, precision, units and alarm message through a PVA link.
-/
namespace Pvxs.Props.LinkMeta
open Pvxs Pvxs.ArrayConv Pvxs.RealScalar Pvxs.NT Pvxs.LinkMeta Pvxs.Spec Pvxs.Spec.LinkMeta
open Pvxs.LinkRead (Rc asUint asStr)

theorem field_meta {l : Link} {t : List FieldDesc} {cs : List Cell} {i : Nat} (h : Selects l t cs i) : fldMeta l = some ⟨t, cs, i⟩ := by
  obtain ⟨d, hd, hc⟩ := h.struct
  unfold fldMeta
  rw [h.root, Option.bind_some]
  simp [codeAt, hd, hc]

theorem field_has {l : Link} {t : List FieldDesc} {cs : List Cell} {i : Nat} (h : Selects l t cs i) {path : List Str} (hp : PlainExpr (joinDots path)) {x : Datum}
    (hx : Has t cs i path x) : field l (joinDots path) = .ok (some x) := by
  obtain ⟨d, hd, hc⟩ := h.struct
  obtain ⟨r, h1, h2, _⟩ := C18_dotted_partial false t h.usable cs i d hd hc (joinDots path) hp
  obtain ⟨j, hj, rfl⟩ := hx
  have := (h2 ⟨t, cs, j⟩).mpr ⟨path, j, rfl, hj, rfl⟩
  unfold field
  rw [field_meta h]
  simp only [h1, this]
  rfl

theorem field_lacks {l : Link} {t : List FieldDesc} {cs : List Cell} {i : Nat} (h : Selects l t cs i) {path : List Str} (hp : PlainExpr (joinDots path))
    (hx : Lacks t i path) : field l (joinDots path) = .ok none := by
  obtain ⟨d, hd, hc⟩ := h.struct
  obtain ⟨r, h1, h2, _⟩ := C18_dotted_partial false t h.usable cs i d hd hc (joinDots path) hp
  unfold field
  rw [field_meta h]
  simp only [h1]
  cases r with
  | none => rfl
  | some f =>
    obtain ⟨ps, j, e, hj, _⟩ := (h2 f).mp rfl
    exact absurd hj (hx ps j e.symm)

theorem number_read (R : Reals) {x : Datum} {b : Nat} (h : Number x b) : readReal R.parse x = .ok b := by
  cases h <;> rfl

/-- a limit which the link does not fail to look up -/
theorem limit_some (R : Reals) {l : Link} {t : List FieldDesc} {cs : List Cell} {i : Nat} (h : Selects l t cs i) {path : List Str} (hp : PlainExpr (joinDots path))
    {name : Str} (hn : name = joinDots path) {old : Nat} {r : Option Nat} (hr : limit R l name (some old) = .ok r) : Reports t cs i path r := by
  intro x b hx hb
  subst hn
  unfold limit at hr
  rw [field_has h hp hx] at hr
  simp only [Res.bind_ok, tryAs, number_read R hb] at hr
  injection hr with hr
  exact hr.symm

theorem limit_none (R : Reals) {l : Link} {t : List FieldDesc} {cs : List Cell} {i : Nat} (h : Selects l t cs i) {path : List Str} (hp : PlainExpr (joinDots path))
    {name : Str} (hn : name = joinDots path) (hx : Lacks t i path) (old : Option Nat) : limit R l name old = .ok old := by
  subst hn
  cases old with
  | none => rfl
  | some old =>
    unfold limit
    rw [field_lacks h hp hx]
    rfl

def pControl (s : String) : List Str := [lit "control", lit s]
def pDisplay (s : String) : List Str := [lit "display", lit s]
def pAlarm (s : String) : List Str := [lit "valueAlarm", lit s]

theorem res_bind_ok {α β : Type} {x : Res α} {f : α → Res β} {b : β} (h : (x >>= f) = .ok b) : ∃ a, x = .ok a ∧ f a = .ok b := by
  cases x with
  | ok a => exact ⟨a, rfl, h⟩
  | throws w => cases h
  | ub => cases h

instance (e : Str) : Decidable (PlainExpr e) := inferInstanceAs (Decidable (e ≠ [] ∧ ∀ c ∈ e, c ≠ 0x3c ∧ c ≠ 0x5b ∧ c ≠ 0x2d))

theorem readReal_total (parse : Str → Option Nat) (x : Datum) : readReal parse x ≠ .ub := by
  cases x <;> simp [readReal]
  rename_i s
  cases parse s <;> simp [orThrow]

/-- A limit which is asked for. -/
theorem limit_ok (R : Reals) {l : Link} {t : List FieldDesc} {cs : List Cell} {i : Nat} (h : Selects l t cs i) (path : List Str) (hp : PlainExpr (joinDots path))
    {name : Str} (hn : name = joinDots path) (old : Nat) : ∃ b, limit R l name (some old) = .ok (some b) ∧ Reports t cs i path (some b) ∧ (Lacks t i path → b = old) := by
  have hex : ∃ b, limit R l name (some old) = .ok (some b) := by
    subst hn
    obtain ⟨d, hd, hc⟩ := h.struct
    obtain ⟨r, h1, _, _⟩ := C18_dotted_partial false t h.usable cs i d hd hc (joinDots path) hp
    unfold limit field
    rw [field_meta h]
    simp only [h1, Res.bind_ok]
    cases r with
    | none => exact ⟨old, rfl⟩
    | some f =>
      simp only [Option.map_some, tryAs]
      cases hx : readReal R.parse (datumAt f.cells f.pos) with
      | ok b => exact ⟨b, rfl⟩
      | throws w => exact ⟨old, rfl⟩
      | ub => exact absurd hx (readReal_total _ _)
  obtain ⟨b, hb⟩ := hex
  refine ⟨b, hb, limit_some R h hp hn hb, fun hl => ?_⟩
  rw [limit_none R h hp hn hl] at hb
  injection hb with hb
  injection hb with hb
  exact hb.symm

theorem sel_if {l : Link} {t : List FieldDesc} {cs : List Cell} {i : Nat} (h : Selects l t cs i) {α : Type} (a b : α) : (if (!l.connected) = true then a else b) = b := by
  rw [h.connected]
  rfl

/-! ### C102 -/

/-- The limits for control, for display and for alarms are those of the target, where they are numbers.
Missing: a target without limits (C102_missing). -/
theorem C102_limits_partial (R : Reals) (l : Link) (t : List FieldDesc) (cs : List Cell) (i : Nat) (h : Selects l t cs i) :
    (∀ lo hi, ∃ lo' hi', controlLimits R l (some lo) (some hi) = .ok (.ok, lo', hi') ∧
      Reports t cs i (pControl "limitLow") lo' ∧ Reports t cs i (pControl "limitHigh") hi') ∧
    (∀ lo hi, ∃ lo' hi', graphicLimits R l (some lo) (some hi) = .ok (.ok, lo', hi') ∧
      Reports t cs i (pDisplay "limitLow") lo' ∧ Reports t cs i (pDisplay "limitHigh") hi') ∧
    (∀ lolo lo hi hihi, ∃ lolo' lo' hi' hihi', alarmLimits R l (some lolo) (some lo) (some hi) (some hihi) = .ok (.ok, lolo', lo', hi', hihi') ∧
      Reports t cs i (pAlarm "lowAlarmLimit") lolo' ∧ Reports t cs i (pAlarm "lowWarningLimit") lo' ∧
      Reports t cs i (pAlarm "highWarningLimit") hi' ∧ Reports t cs i (pAlarm "highAlarmLimit") hihi') := by
  refine ⟨fun lo hi => ?_, fun lo hi => ?_, fun lolo lo hi hihi => ?_⟩
  · obtain ⟨a, a1, a2, _⟩ := limit_ok R h (pControl "limitLow") (by decide) (name := lit "control.limitLow") (by rfl) lo
    obtain ⟨b, b1, b2, _⟩ := limit_ok R h (pControl "limitHigh") (by decide) (name := lit "control.limitHigh") (by rfl) hi
    refine ⟨some a, some b, ?_, a2, b2⟩
    unfold controlLimits limits2
    rw [sel_if h, a1, Res.bind_ok, b1]
    rfl
  · obtain ⟨a, a1, a2, _⟩ := limit_ok R h (pDisplay "limitLow") (by decide) (name := lit "display.limitLow") (by rfl) lo
    obtain ⟨b, b1, b2, _⟩ := limit_ok R h (pDisplay "limitHigh") (by decide) (name := lit "display.limitHigh") (by rfl) hi
    refine ⟨some a, some b, ?_, a2, b2⟩
    unfold graphicLimits limits2
    rw [sel_if h, a1, Res.bind_ok, b1]
    rfl
  · obtain ⟨a, a1, a2, _⟩ := limit_ok R h (pAlarm "lowAlarmLimit") (by decide) (name := lit "valueAlarm.lowAlarmLimit") (by rfl) lolo
    obtain ⟨b, b1, b2, _⟩ := limit_ok R h (pAlarm "lowWarningLimit") (by decide) (name := lit "valueAlarm.lowWarningLimit") (by rfl) lo
    obtain ⟨c, c1, c2, _⟩ := limit_ok R h (pAlarm "highWarningLimit") (by decide) (name := lit "valueAlarm.highWarningLimit") (by rfl) hi
    obtain ⟨d, d1, d2, _⟩ := limit_ok R h (pAlarm "highAlarmLimit") (by decide) (name := lit "valueAlarm.highAlarmLimit") (by rfl) hihi
    refine ⟨some a, some b, some c, some d, ?_, a2, b2, c2, d2⟩
    unfold alarmLimits
    rw [sel_if h, a1, Res.bind_ok, b1, Res.bind_ok, c1, Res.bind_ok, d1]
    rfl

/-- Where the target has no limits the link says that it succeeded, and leaves the memory of the caller as it was: the caller can not tell, and two callers get different limits. -/
theorem C102_missing (R : Reals) (l : Link) (t : List FieldDesc) (cs : List Cell) (i : Nat) (h : Selects l t cs i)
    (hl : Lacks t i (pControl "limitLow")) (hh : Lacks t i (pControl "limitHigh")) (lo hi : Nat) :
    controlLimits R l (some lo) (some hi) = .ok (.ok, some lo, some hi) := by
  obtain ⟨a, a1, _, a3⟩ := limit_ok R h (pControl "limitLow") (by decide) (name := lit "control.limitLow") (by rfl) lo
  obtain ⟨b, b1, _, b3⟩ := limit_ok R h (pControl "limitHigh") (by decide) (name := lit "control.limitHigh") (by rfl) hi
  rw [a3 hl] at a1
  rw [b3 hh] at b1
  unfold controlLimits limits2
  rw [sel_if h, a1, Res.bind_ok, b1]
  rfl

/-- A target which is not a structure: the same. -/
theorem C102_plain (R : Reals) (l : Link) (hc : l.connected = true) (hm : ∀ h, l.root = some h → codeAt h ≠ some .Struct) (lo hi : Nat) :
    controlLimits R l (some lo) (some hi) = .ok (.ok, some lo, some hi) ∧ graphicLimits R l (some lo) (some hi) = .ok (.ok, some lo, some hi) := by
  have hf : fldMeta l = none := by
    unfold fldMeta
    cases hr : l.root with
    | none => rfl
    | some h =>
      rw [Option.bind_some, if_neg (hm h hr)]
  unfold controlLimits graphicLimits limits2 limit field
  rw [hc, hf]
  exact ⟨rfl, rfl⟩

/-- Not connected: an error, and nothing is written. -/
theorem C102_disconnected (R : Reals) (l : Link) (hc : l.connected = false) (a b c d : Option Nat) (p : Int) (n : Nat) :
    controlLimits R l a b = .ok (.fail, a, b) ∧ graphicLimits R l a b = .ok (.fail, a, b) ∧ alarmLimits R l a b c d = .ok (.fail, a, b, c, d) ∧
    precision l p = .ok (.fail, p) ∧ units l n = .ok (.fail, none) ∧ alarmMsg l n = none := by
  unfold controlLimits graphicLimits alarmLimits limits2 precision units alarmMsg
  rw [hc]
  exact ⟨rfl, rfl, rfl, rfl, rfl, rfl⟩

theorem text_self : ∀ {s : Str}, 0 ∉ s → s.takeWhile (fun c => c != 0) = s
  | [], _ => rfl
  | c :: s, h => by
    simp only [List.mem_cons, not_or] at h
    rw [List.takeWhile_cons, if_pos (by simp [Ne.symm h.1]), text_self h.2]

theorem intOf_small (v : Int) (h : -(2 ^ 15 : Int) ≤ v) (h' : v < 2 ^ 15) : intOf 2 (intBits 8 v % 2 ^ 16) = v := by
  unfold intOf intBits
  have h1 : (2 : Int) ^ 15 = 32768 := by decide
  rw [h1] at h h'
  simp only [Nat.reducePow, Nat.reduceMul]
  omega

/-- The precision is that of the target, if it is one a short can have. -/
theorem C102_precision_partial (l : Link) (t : List FieldDesc) (cs : List Cell) (i : Nat) (h : Selects l t cs i) (old : Int) :
    (∀ v : Int, Has t cs i (pDisplay "precision") (.int v) → -(2 ^ 15 : Int) ≤ v → v < 2 ^ 15 → precision l old = .ok (.ok, v)) ∧
    (Lacks t i (pDisplay "precision") → precision l old = .ok (.ok, 0)) := by
  constructor
  · intro v hv h1 h2
    unfold precision
    rw [sel_if h, show lit "display.precision" = joinDots (pDisplay "precision") from rfl, field_has h (by decide) hv]
    show Res.ok (Rc.ok, intOf 2 (intBits 8 v % 2 ^ 16)) = _
    rw [intOf_small v h1 h2]
  · intro hl
    unfold precision
    rw [sel_if h, show lit "display.precision" = joinDots (pDisplay "precision") from rfl, field_lacks h (by decide) hl]
    rfl

/-- Other values are cut: a precision of 65541 is 5. -/
theorem C102_precision_cut (l : Link) (t : List FieldDesc) (cs : List Cell) (i : Nat) (h : Selects l t cs i) (old : Int) (hv : Has t cs i (pDisplay "precision") (.int 65541)) :
    precision l old = .ok (.ok, 5) := by
  unfold precision
  rw [sel_if h, show lit "display.precision" = joinDots (pDisplay "precision") from rfl, field_has h (by decide) hv]
  rfl

/-- The units are those of the target, as many characters as there is room for; none if the target has none. -/
theorem C102_units (l : Link) (t : List FieldDesc) (cs : List Cell) (i : Nat) (h : Selects l t cs i) (size : Nat) (hsz : 0 < size) :
    (∀ s, Has t cs i (pDisplay "units") (.str s) → 0 ∉ s → units l size = .ok (.ok, some (s.take (size - 1)))) ∧
    (Lacks t i (pDisplay "units") → units l size = .ok (.ok, some [])) := by
  constructor
  · intro s hs h0
    unfold units
    rw [sel_if h, if_neg (by omega), show lit "display.units" = joinDots (pDisplay "units") from rfl, field_has h (by decide) hs]
    show Res.ok (Rc.ok, some ((s.takeWhile fun c => c != 0).take (size - 1))) = _
    have : s.takeWhile (fun c => c != 0) = s := text_self h0
    rw [this]
  · intro hl
    unfold units
    rw [sel_if h, if_neg (by omega), show lit "display.units" = joinDots (pDisplay "units") from rfl, field_lacks h (by decide) hl]
    show Res.ok (Rc.ok, some (List.take (size - 1) [])) = _
    rw [List.take_nil]

/-- The severity and the message of the link: as much of the message as two less than the size of the buffer. -/
theorem C102_message_partial (l : Link) (hc : l.connected = true) (size : Nat) (hsz : 0 < size) (h0 : 0 ∉ l.message) :
    alarmMsg l size = some (decide (l.severity ≠ 0), l.severity, some (l.message.take (size - 2))) := by
  unfold alarmMsg
  rw [hc, if_neg (by simp), if_neg (by omega)]
  have : l.message.takeWhile (fun c => c != 0) = l.message := text_self h0
  rw [this]
  split
  · rename_i he
    rw [he, List.take_nil]
  · rw [show size - 1 - 1 = size - 2 by omega]

/-- A message for which there is just enough room loses its last character. -/
theorem C102_message_cut (l : Link) (hc : l.connected = true) (h0 : 0 ∉ l.message) (hne : l.message ≠ []) :
    alarmMsg l (l.message.length + 1) = some (decide (l.severity ≠ 0), l.severity, some l.message.dropLast) := by
  rw [C102_message_partial l hc _ (by omega) h0]
  have : l.message.length + 1 - 2 = l.message.length - 1 := by omega
  rw [this, List.dropLast_eq_take]

/-! Examples: the hypotheses are met -/

/-- a structure with a limit and a precision -/
def exT : List FieldDesc :=
  [{ code := .Struct, mlookup := [(lit "control", 1), (lit "control.limitLow", 2), (lit "display", 3), (lit "display.precision", 4)], miter := [(lit "control", 1), (lit "display", 3)] },
   { code := .Struct, mlookup := [(lit "limitLow", 1)], miter := [(lit "limitLow", 1)], parentIndex := 1 }, { code := .Float64, parentIndex := 1 },
   { code := .Struct, mlookup := [(lit "precision", 1)], miter := [(lit "precision", 1)], parentIndex := 3 }, { code := .Int32, parentIndex := 1 }]

def exCs : List Cell := [.mk false .null, .mk false .null, .mk false (.real 5), .mk false .null, .mk false (.int 3)]

def exL : Link := { connected := true, root := some ⟨exT, exCs, 0⟩, severity := 1, message := lit "abc" }

def exBytes : List Wire.Byte :=
  [0x80, 0, 2, 7] ++ lit "control" ++ [0x80, 0, 1, 8] ++ lit "limitLow" ++ [0x43, 7] ++ lit "display" ++ [0x80, 0, 1, 9] ++ lit "precision" ++ [0x22]

theorem exL_ok : Selects exL exT exCs 0 :=
  ⟨rfl, rfl, ⟨.decoded [] (input true exBytes) exT (by rfl) (by rfl) (by simp [exT]), rfl⟩, _, rfl, rfl⟩

example : Has exT exCs 0 (pControl "limitLow") (.real 5) ∧ Has exT exCs 0 (pDisplay "precision") (.int 3) :=
  ⟨⟨2, .member 0 _ _ 1 _ _ rfl rfl (by decide) (.member 1 _ _ 1 _ _ rfl rfl (by decide) (.here 2)), rfl⟩,
   ⟨4, .member 0 _ _ 3 _ _ rfl rfl (by decide) (.member 3 _ _ 1 _ _ rfl rfl (by decide) (.here 4)), rfl⟩⟩

/-- a structure without limits: C102_missing -/
def exN : List FieldDesc := [{ code := .Struct, mlookup := [(lit "value", 1)], miter := [(lit "value", 1)] }, { code := .Float64, parentIndex := 1 }]

example : Selects { connected := true, root := some ⟨exN, [.mk false .null, .mk false (.real 0)], 0⟩ } exN [.mk false .null, .mk false (.real 0)] 0 ∧ Lacks exN 0 (pControl "limitLow") := by
  refine ⟨⟨rfl, rfl, ⟨.decoded [] (input true ([0x80, 0, 1, 5] ++ lit "value" ++ [0x43])) exN (by rfl) (by rfl) (by simp [exN]), rfl⟩, _, rfl, rfl⟩, fun ps j he hd => ?_⟩
  cases hd with
  | here => exact absurd he (by decide)
  | member _ d name off more _ hd hc hm h =>
    cases (show some _ = some d from hd)
    have hm' : (name, off) = (lit "value", 1) := List.mem_singleton.mp hm
    cases hm'
    cases h with
    | here => exact absurd he (by decide)
    | member _ d _ _ _ _ hd hc _ _ =>
      cases (show some _ = some d from hd)
      exact absurd hc (by decide)

example : (0 : Wire.Byte) ∉ exL.message ∧ alarmMsg exL 4 = some (true, 1, some (lit "ab")) := by decide

end Pvxs.Props.LinkMeta
