import Verif.Spec.NT
import Verif.Props.TypeDef
/-
C97: the normative types have the fields they must have, for every type of value, all options and all columns.
-/
namespace Pvxs.Props.NT
open Pvxs Pvxs.TypeDef Pvxs.NT Pvxs.Spec Pvxs.Spec.NT

/-! ### lemmas -/

theorem leaf_ok (c : TypeCode) (n : Str) (hn : nameValidate n = .ok ()) (hc : c.valid = true) : Validated { code := c, name := n } := by
  have h0 : n ≠ [] := by intro e; subst e; cases hn
  simp [Validated, ValidatedAll, Member.validate, ifNamed, h0, hn, nodeValidate, hc, pure, List.forM]

theorem node_of {m : Member} (h : Validated m) : nodeValidate (some .Struct) m.id m.code = .ok () := by
  obtain ⟨code, name, id, kids⟩ := m
  have h1 := (validate_ok h.1)
  have h2 : nodeValidate none id code = .ok () := by
    have := h.1
    simp only [Member.validate] at this
    cases hn : ifNamed name (nameValidate name) <;> rw [hn] at this <;> try (cases this)
    cases hd : nodeValidate none id code <;> rw [hd] at this <;> first | rfl | cases this
  unfold nodeValidate at h2 ⊢
  split at h2
  · cases h2
  · rename_i hh
    rw [if_neg hh]
    split at h2
    · cases h2
    · rename_i hv
      rw [if_neg hv]
      rfl

theorem struct_ok (n id : Str) (kids : List Member) (hn : ifNamed n (nameValidate n) = .ok ()) (hk : ∀ k ∈ kids, Validated k) :
    Validated { code := .Struct, name := n, id := id, children := kids } := by
  have hall : ∀ l : List Member, (∀ k ∈ l, Validated k) → ValidatedAll l := by
    intro l
    induction l with
    | nil => intro _; trivial
    | cons a t ih => intro h; exact ⟨h a (by simp), ih fun k hk => h k (by simp [hk])⟩
  have hf : ∀ l : List Member, (∀ k ∈ l, Validated k) → (l.forM fun c => nodeValidate (some .Struct) c.id c.code) = .ok () := by
    intro l
    induction l with
    | nil => intro _; rfl
    | cons a t ih =>
      intro h
      show (nodeValidate (some .Struct) a.id a.code >>= fun _ => t.forM fun c => nodeValidate (some .Struct) c.id c.code) = _
      rw [node_of (h a (by simp))]
      exact ih fun k hk => h k (by simp [hk])
  refine ⟨?_, hall kids hk⟩
  have hd : nodeValidate none id .Struct = .ok () := by
    unfold nodeValidate
    rw [if_neg (by intro h; exact h.2.1 rfl), if_neg (by decide)]
  show (ifNamed n (nameValidate n) >>= fun _ => nodeValidate none id .Struct >>= fun _ => kids.forM fun c => nodeValidate (some .Struct) c.id c.code) = _
  rw [hn, hd]
  exact hf kids hk

theorem make_ok (id : Str) (kids : List Member) (hv : Validated { code := .Struct, id := id, children := kids })
    (hd : DistinctNames { code := .Struct, id := id, children := kids }) :
    make .Struct id kids = .ok { top := some { code := .Struct, id := id, children := kids }, desc := some (flat { code := .Struct, id := id, children := kids }) } := by
  unfold make
  rw [hv.1]
  simp only [Res.bind_ok]
  rw [build_total _ hv hd]
  rfl

theorem plus_ok (id : Str) (cs as ks : List Member) (ha : adoptAll cs as = .ok ks) (hv : Validated { code := .Struct, id := id, children := ks })
    (hd : DistinctNames { code := .Struct, id := id, children := ks }) (t : Option (List FieldDesc)) :
    plus { top := some { code := .Struct, id := id, children := cs }, desc := t } as =
      .ok { top := some { code := .Struct, id := id, children := ks }, desc := some (flat { code := .Struct, id := id, children := ks }) } := by
  unfold plus Def.append
  simp only
  rw [if_neg (by intro h; exact h.1 rfl), ha]
  simp only [Res.bind_ok]
  rw [build_total _ hv hd]
  rfl

theorem adopt_one (cs : List Member) (a : Member) (h : a.name ∉ cs.map Member.name) : adoptAll cs [a] = .ok (cs ++ [a]) := by
  rw [adoptAll, TypeDef.adopt_new a cs h]
  simp [adoptAll]

theorem prim {c e : TypeCode} (h : elementOf c = some e) :
    c.valid = true ∧ c.kind ≠ TypeCode.KCompound ∧ c.scalarOf = e ∧ e.valid = true ∧ NT.isNumeric c = isNumber e ∧ c.isarray = isArray c := by
  have all : ∀ n : Fin 256, (elementOf ⟨UInt8.ofNat n.val⟩).all (fun e =>
      (⟨UInt8.ofNat n.val⟩ : TypeCode).valid && (⟨UInt8.ofNat n.val⟩ : TypeCode).kind != TypeCode.KCompound && (⟨UInt8.ofNat n.val⟩ : TypeCode).scalarOf == e && e.valid &&
      NT.isNumeric ⟨UInt8.ofNat n.val⟩ == isNumber e && (⟨UInt8.ofNat n.val⟩ : TypeCode).isarray == isArray ⟨UInt8.ofNat n.val⟩) = true := by decide +kernel
  have := all ⟨c.code.toNat, c.code.toNat_lt⟩
  simp only [UInt8.ofNat_toNat] at this
  change (elementOf c).all (fun e => c.valid && c.kind != TypeCode.KCompound && c.scalarOf == e && e.valid && NT.isNumeric c == isNumber e && c.isarray == isArray c) = true at this
  rw [h] at this
  simpa [and_assoc] using this

theorem not_prim {c : TypeCode} (h : elementOf c = none) : (!c.valid || c.kind = TypeCode.KCompound) = true := by
  have all : ∀ n : Fin 256, elementOf ⟨UInt8.ofNat n.val⟩ = none →
      (!(⟨UInt8.ofNat n.val⟩ : TypeCode).valid || (⟨UInt8.ofNat n.val⟩ : TypeCode).kind = TypeCode.KCompound) = true := by decide +kernel
  have := all ⟨c.code.toNat, c.code.toNat_lt⟩
  simp only [UInt8.ofNat_toNat] at this
  exact this h

theorem distinct_of (c : TypeCode) (n id : Str) (kids : List Member) (h1 : (kids.map Member.name).Nodup) (h2 : ∀ k ∈ kids, (0x2e : Wire.Byte) ∉ k.name ∧ DistinctNames k) :
    DistinctNames { code := c, name := n, id := id, children := kids } := by
  have hall : ∀ l : List Member, (∀ k ∈ l, (0x2e : Wire.Byte) ∉ k.name ∧ DistinctNames k) → DistinctNamesAll l := by
    intro l
    induction l with
    | nil => intro _; trivial
    | cons a t ih => intro h; exact ⟨(h a (by simp)).1, (h a (by simp)).2, ih fun k hk => h k (by simp [hk])⟩
  exact ⟨h1, hall kids h2⟩

theorem leaf_distinct (c : TypeCode) (n : Str) : DistinctNames { code := c, name := n } := distinct_of _ _ _ [] List.nodup_nil (fun _ h => nomatch h)

/-- a member which is in order: its name, what it contains, and all names in it -/
def Good (m : Member) : Prop := Validated m ∧ (0x2e : Wire.Byte) ∉ m.name ∧ DistinctNames m

theorem good_fld (c : TypeCode) (n : String) (hc : c.valid = true) (hn : nameValidate (lit n) = .ok ()) (hd : (0x2e : Wire.Byte) ∉ lit n) : Good (fld c n) :=
  ⟨leaf_ok _ _ hn hc, hd, leaf_distinct _ _⟩

theorem good_struct (n id : Str) (kids : List Member) (hn : nameValidate n = .ok ()) (hd : (0x2e : Wire.Byte) ∉ n) (hk : ∀ k ∈ kids, Good k)
    (hnd : (kids.map Member.name).Nodup) : Good { code := .Struct, name := n, id := id, children := kids } := by
  have h0 : n ≠ [] := by intro e; subst e; cases hn
  refine ⟨struct_ok n id kids (by unfold ifNamed; rw [if_pos h0, hn]) fun k hk' => (hk k hk').1, hd, distinct_of _ _ _ kids hnd fun k hk' => (hk k hk').2⟩

theorem all_cons {P : Member → Prop} {a : Member} {l : List Member} (h : P a) (hl : ∀ k ∈ l, P k) : ∀ k ∈ a :: l, P k := List.forall_mem_cons.2 ⟨h, hl⟩
theorem all_nil {P : Member → Prop} : ∀ k ∈ ([] : List Member), P k := fun _ h => nomatch h
theorem all_append {P : Member → Prop} {l l' : List Member} (h : ∀ k ∈ l, P k) (h' : ∀ k ∈ l', P k) : ∀ k ∈ l ++ l', P k := fun k hk => (List.mem_append.1 hk).elim (h k) (h' k)

/-- a structure of fields with constant names -/
local macro "fields" : tactic => `(tactic| repeat (first | exact all_nil | refine all_cons (good_fld _ _ (by first | assumption | rfl) rfl (by decide)) ?_))

theorem good_root (id : Str) (kids : List Member) (hk : ∀ k ∈ kids, Good k) (hn : (kids.map Member.name).Nodup) :
    Validated { code := .Struct, id := id, children := kids } ∧ DistinctNames { code := .Struct, id := id, children := kids } :=
  ⟨struct_ok [] id kids rfl fun k h => (hk k h).1, distinct_of _ _ _ kids hn fun k h => (hk k h).2⟩

/-- the definition with these members -/
def defOf (id : Str) (kids : List Member) : Def :=
  { top := some { code := .Struct, id := id, children := kids }, desc := some (flat { code := .Struct, id := id, children := kids }) }

theorem make_good (id : Str) (kids : List Member) (hk : ∀ k ∈ kids, Good k) (hn : (kids.map Member.name).Nodup) : make .Struct id kids = .ok (defOf id kids) :=
  make_ok id kids (good_root id kids hk hn).1 (good_root id kids hk hn).2

theorem plus_good (id : Str) (cs as ks : List Member) (ha : adoptAll cs as = .ok ks) (hk : ∀ k ∈ ks, Good k) (hn : (ks.map Member.name).Nodup) :
    plus (defOf id cs) as = .ok (defOf id ks) :=
  plus_ok id cs as ks ha (good_root id ks hk hn).1 (good_root id ks hk hn).2 _

theorem plus_new (id : Str) (cs : List Member) (a : Member) (hk : ∀ k ∈ cs, Good k) (hn : (cs.map Member.name).Nodup) (ha : Good a) (hna : a.name ∉ cs.map Member.name) :
    plus (defOf id cs) [a] = .ok (defOf id (cs ++ [a])) ∧ (∀ k ∈ cs ++ [a], Good k) ∧ ((cs ++ [a]).map Member.name).Nodup := by
  have h1 : ∀ k ∈ cs ++ [a], Good k := all_append hk (all_cons ha all_nil)
  have h2 : ((cs ++ [a]).map Member.name).Nodup := by
    rw [List.map_append, List.nodup_append]
    refine ⟨hn, by simp, ?_⟩
    intro x hx y hy e
    simp only [List.map_cons, List.map_nil, List.mem_singleton] at hy
    subst e; subst hy
    exact hna hx
  exact ⟨plus_good id cs [a] _ (adopt_one cs a hna) h1 h2, h1, h2⟩

theorem is_of (id : Str) (kids : List Member) (rs : List Row) (hk : ∀ k ∈ kids, Good k) (hn : (kids.map Member.name).Nodup) (hr : rows [] kids = rs) :
    Is (defOf id kids) id rs := by
  obtain ⟨h1, h2⟩ := good_root id kids hk hn
  exact ⟨_, _, rfl, rfl, build_total _ h1 h2, rfl, rfl, hr, h1, h2⟩

/-! ### the parts -/

def timeM : Member := grp "timeStamp" "time_t" [fld .Int64 "secondsPastEpoch", fld .Int32 "nanoseconds", fld .Int32 "userTag"]
def alarmM : Member := grp "alarm" "alarm_t" [fld .Int32 "severity", fld .Int32 "status", fld .String "message"]
def dispNum (e : TypeCode) : Member := grp "display" "" [fld e "limitLow", fld e "limitHigh", fld .String "description", fld .String "units"]
def dispForm (e : TypeCode) : Member := grp "display" "" [fld e "limitLow", fld e "limitHigh", fld .String "description", fld .String "units",
  fld .Int32 "precision", grp "form" "enum_t" [fld .Int32 "index", fld .StringA "choices"]]
def dispStr : Member := grp "display" "" [fld .String "description", fld .String "units"]
def ctrlM (e : TypeCode) : Member := grp "control" "" [fld e "limitLow", fld e "limitHigh", fld e "minStep"]
def valM (e : TypeCode) : Member := grp "valueAlarm" "" [fld .Bool "active", fld e "lowAlarmLimit", fld e "lowWarningLimit",
      fld e "highWarningLimit", fld e "highAlarmLimit", fld .Int32 "lowAlarmSeverity", fld .Int32 "lowWarningSeverity",
      fld .Int32 "highWarningSeverity", fld .Int32 "highAlarmSeverity", fld .Float64 "hysteresis"]

theorem good_time : Good timeM := good_struct _ _ _ rfl (by decide) (by fields) (by decide)
theorem good_alarm : Good alarmM := good_struct _ _ _ rfl (by decide) (by fields) (by decide)
theorem good_form : Good (grp "form" "enum_t" [fld .Int32 "index", fld .StringA "choices"]) := good_struct _ _ _ rfl (by decide) (by fields) (by decide)
theorem good_dispStr : Good dispStr := good_struct _ _ _ rfl (by decide) (by fields) (by decide)
theorem good_dispNum (e : TypeCode) (he : e.valid = true) : Good (dispNum e) := good_struct _ _ _ rfl (by decide) (by fields) (by
  show ([lit "limitLow", lit "limitHigh", lit "description", lit "units"] : List Str).Nodup
  decide)
theorem good_dispForm (e : TypeCode) (he : e.valid = true) : Good (dispForm e) := good_struct _ _ _ rfl (by decide)
  (by fields; exact all_cons good_form all_nil) (by
  show ([lit "limitLow", lit "limitHigh", lit "description", lit "units", lit "precision", lit "form"] : List Str).Nodup
  decide)
theorem good_ctrl (e : TypeCode) (he : e.valid = true) : Good (ctrlM e) := good_struct _ _ _ rfl (by decide) (by fields) (by
  show ([lit "limitLow", lit "limitHigh", lit "minStep"] : List Str).Nodup
  decide)
theorem good_val (e : TypeCode) (he : e.valid = true) : Good (valM e) := good_struct _ _ _ rfl (by decide) (by fields) (by
  show ([lit "active", lit "lowAlarmLimit", lit "lowWarningLimit", lit "highWarningLimit", lit "highAlarmLimit", lit "lowAlarmSeverity", lit "lowWarningSeverity",
    lit "highWarningSeverity", lit "highAlarmSeverity", lit "hysteresis"] : List Str).Nodup
  decide)

theorem timeStamp_eq : NT.timeStamp = .ok (defOf (lit "time_t") [fld .Int64 "secondsPastEpoch", fld .Int32 "nanoseconds", fld .Int32 "userTag"]) :=
  make_good _ _ (by fields) (by decide)
theorem alarm_eq : NT.alarm = .ok (defOf (lit "alarm_t") [fld .Int32 "severity", fld .Int32 "status", fld .String "message"]) :=
  make_good _ _ (by fields) (by decide)

theorem as_def (id : Str) (kids : List Member) (n : Str) : (defOf id kids).as n = .ok { code := .Struct, name := n, id := id, children := kids } := rfl

/-- NTEnum -/
theorem C97_enum : ∃ d, NT.enum = .ok d ∧ Is d (txt "epics:nt/NTEnum:1.0") enumRows := by
  have hk : ∀ k ∈ [grp "value" "enum_t" [fld .Int32 "index", fld .StringA "choices"], alarmM, timeM, grp "display" "" [fld .String "description"]], Good k :=
    all_cons (good_struct _ _ _ rfl (by decide) (by fields) (by decide)) (all_cons good_alarm (all_cons good_time (all_cons
      (good_struct _ _ _ rfl (by decide) (by fields) (by decide)) all_nil)))
  refine ⟨_, ?_, is_of (lit "epics:nt/NTEnum:1.0") _ _ hk (by decide) rfl⟩
  simp only [NT.enum, alarm_eq, timeStamp_eq, Res.bind_ok, as_def]
  exact make_good _ _ hk (by decide)

/-! ### NTScalar and NTScalarArray -/

theorem good_base (c : TypeCode) (hc : c.valid = true) : ∀ k ∈ [fld c "value", alarmM, timeM], Good k :=
  all_cons (good_fld _ _ hc rfl (by decide)) (all_cons good_alarm (all_cons good_time all_nil))

/-- what is added for "display" -/
def dispOf (o : NT.Scalar) (e : TypeCode) : List Member :=
  if o.display then [if isNumber e then (if o.form then dispForm e else dispNum e) else dispStr] else []
def ctrlOf (o : NT.Scalar) (e : TypeCode) : List Member := if o.control && isNumber e then [ctrlM e] else []
def valOf (o : NT.Scalar) (e : TypeCode) : List Member := if o.valueAlarm && isNumber e then [valM e] else []

theorem merge_form (e : TypeCode) (pre : List Member) (h : lit "display" ∉ pre.map Member.name) :
    adoptAll (pre ++ [dispNum e]) [grp "display" "" [fld .Int32 "precision", grp "form" "enum_t" [fld .Int32 "index", fld .StringA "choices"]]] = .ok (pre ++ [dispForm e]) := by
  have hk : adoptAll (dispNum e).children [fld .Int32 "precision", grp "form" "enum_t" [fld .Int32 "index", fld .StringA "choices"]] = .ok (dispForm e).children := by
    rw [adoptAll, TypeDef.adopt_new _ _ (by
      show lit "precision" ∉ ([lit "limitLow", lit "limitHigh", lit "description", lit "units"] : List Str)
      decide), Res.bind_ok, adopt_one _ _ (by
      show lit "form" ∉ ([lit "limitLow", lit "limitHigh", lit "description", lit "units", lit "precision"] : List Str)
      decide)]
    rfl
  rw [adoptAll, TypeDef.adopt_old (grp "display" "" [fld .Int32 "precision", grp "form" "enum_t" [fld .Int32 "index", fld .StringA "choices"]]) (dispNum e) [] rfl pre h, if_neg (by intro h; exact h rfl)]
  show (adoptAll (dispNum e).children [fld .Int32 "precision", grp "form" "enum_t" [fld .Int32 "index", fld .StringA "choices"]] >>= _) >>= _ = _
  rw [hk]
  simp only [Res.bind_ok, adoptAll]
  rfl

theorem rows_append (pre : Str) (l l' : List Member) : rows pre (l ++ l') = rows pre l ++ rows pre l' := by
  induction l with
  | nil => rfl
  | cons a t ih => rw [List.cons_append, rows, rows, ih, List.append_assoc]

theorem disp_rows (o : NT.Scalar) (e : TypeCode) : rows [] (dispOf o e) = if o.display then
    ⟨txt "display", .Struct, []⟩ ::
    ((if isNumber e then [⟨txt "display.limitLow", e, []⟩, ⟨txt "display.limitHigh", e, []⟩] else []) ++
     [⟨txt "display.description", .String, []⟩, ⟨txt "display.units", .String, []⟩] ++
     (if isNumber e && o.form then [⟨txt "display.precision", .Int32, []⟩, ⟨txt "display.form", .Struct, txt "enum_t"⟩, ⟨txt "display.form.index", .Int32, []⟩,
       ⟨txt "display.form.choices", .StringA, []⟩] else [])) else [] := by
  unfold dispOf
  cases o.display with
  | false => rfl
  | true =>
    cases isNumber e with
    | false => rfl
    | true => cases o.form <;> rfl

theorem val_rows (e : TypeCode) : rows [] [valM e] = [⟨txt "valueAlarm", .Struct, []⟩, ⟨txt "valueAlarm.active", .Bool, []⟩,
     ⟨txt "valueAlarm.lowAlarmLimit", e, []⟩, ⟨txt "valueAlarm.lowWarningLimit", e, []⟩, ⟨txt "valueAlarm.highWarningLimit", e, []⟩, ⟨txt "valueAlarm.highAlarmLimit", e, []⟩,
     ⟨txt "valueAlarm.lowAlarmSeverity", .Int32, []⟩, ⟨txt "valueAlarm.lowWarningSeverity", .Int32, []⟩, ⟨txt "valueAlarm.highWarningSeverity", .Int32, []⟩,
     ⟨txt "valueAlarm.highAlarmSeverity", .Int32, []⟩, ⟨txt "valueAlarm.hysteresis", .Float64, []⟩] := rfl

/-- NTScalar and NTScalarArray -/
theorem C97_scalar (o : NT.Scalar) (e : TypeCode) (he : elementOf o.value = some e) :
    ∃ d, NT.scalar o = .ok d ∧ Is d (txt (if isArray o.value then "epics:nt/NTScalarArray:1.0" else "epics:nt/NTScalar:1.0")) (scalarRows o e) := by
  obtain ⟨hv, hc, hs, hev, hnum, harr⟩ := prim he
  let K := [fld o.value "value", alarmM, timeM]
  let id := lit (if isArray o.value then "epics:nt/NTScalarArray:1.0" else "epics:nt/NTScalar:1.0")
  have hK : K.map Member.name = [lit "value", lit "alarm", lit "timeStamp"] := rfl
  have gK : ∀ k ∈ K, Good k := good_base _ hv
  have nK : (K.map Member.name).Nodup := by rw [hK]; decide
  -- display
  have s1 : NT.addDisplay o (defOf id K) = .ok (defOf id (K ++ dispOf o e)) ∧ (∀ k ∈ K ++ dispOf o e, Good k) ∧ ((K ++ dispOf o e).map Member.name).Nodup ∧
      (dispOf o e).map Member.name = if o.display then [lit "display"] else [] := by
    unfold NT.addDisplay dispOf
    rw [hnum, hs]
    cases o.display with
    | false => simp only [Bool.false_and, Bool.false_eq_true, if_false]; exact ⟨by rw [List.append_nil], by rw [List.append_nil]; exact gK, by rw [List.append_nil]; exact nK, rfl⟩
    | true =>
      cases hn : isNumber e with
      | false =>
        simp only [Bool.and_false, Bool.false_eq_true, if_false, Bool.not_false, Bool.and_self, if_true]
        obtain ⟨h1, h2, h3⟩ := plus_new id K dispStr gK nK good_dispStr (by rw [hK]; decide)
        exact ⟨h1, h2, h3, rfl⟩
      | true =>
        simp only [Bool.and_self, if_true]
        obtain ⟨h1, h2, h3⟩ := plus_new id K (dispNum e) gK nK (good_dispNum e hev) (by rw [hK]; show lit "display" ∉ _; decide)
        change (plus (defOf id K) [dispNum e] >>= _) = _ ∧ _
        rw [h1, Res.bind_ok]
        cases o.form with
        | false => exact ⟨rfl, h2, h3, rfl⟩
        | true =>
          simp only [if_true]
          have h2' : ∀ k ∈ K ++ [dispForm e], Good k := all_append gK (all_cons (good_dispForm e hev) all_nil)
          exact ⟨plus_good id _ _ _ (merge_form e K (by rw [hK]; decide)) h2' h3, h2', h3, rfl⟩
  obtain ⟨e1, g1, n1, m1⟩ := s1
  have s2 : NT.addControl o (defOf id (K ++ dispOf o e)) = .ok (defOf id (K ++ dispOf o e ++ ctrlOf o e)) ∧ (∀ k ∈ K ++ dispOf o e ++ ctrlOf o e, Good k) ∧
      ((K ++ dispOf o e ++ ctrlOf o e).map Member.name).Nodup ∧ (ctrlOf o e).map Member.name = if o.control && isNumber e then [lit "control"] else [] := by
    unfold NT.addControl ctrlOf
    rw [hnum, hs]
    cases o.control && isNumber e with
    | false => simp only [Bool.false_eq_true, if_false]; exact ⟨by rw [List.append_nil], by rw [List.append_nil]; exact g1, by rw [List.append_nil]; exact n1, rfl⟩
    | true =>
      simp only [if_true]
      obtain ⟨h1, h2, h3⟩ := plus_new id _ (ctrlM e) g1 n1 (good_ctrl e hev) (by
        rw [List.map_append, m1, hK]
        show lit "control" ∉ _
        cases o.display <;> decide)
      exact ⟨h1, h2, h3, rfl⟩
  obtain ⟨e2, g2, n2, m2⟩ := s2
  have s3 : NT.addValueAlarm o (defOf id (K ++ dispOf o e ++ ctrlOf o e)) = .ok (defOf id (K ++ dispOf o e ++ ctrlOf o e ++ valOf o e)) ∧
      (∀ k ∈ K ++ dispOf o e ++ ctrlOf o e ++ valOf o e, Good k) ∧ ((K ++ dispOf o e ++ ctrlOf o e ++ valOf o e).map Member.name).Nodup := by
    unfold NT.addValueAlarm valOf
    rw [hnum, hs]
    cases o.valueAlarm && isNumber e with
    | false => simp only [Bool.false_eq_true, if_false]; exact ⟨by rw [List.append_nil], by rw [List.append_nil]; exact g2, by rw [List.append_nil]; exact n2⟩
    | true =>
      simp only [if_true]
      exact plus_new id _ (valM e) g2 n2 (good_val e hev) (by
        rw [List.map_append, List.map_append, m1, m2, hK]
        show lit "valueAlarm" ∉ _
        cases o.display <;> cases o.control && isNumber e <;> decide)
  obtain ⟨e3, g3, n3⟩ := s3
  refine ⟨_, ?_, is_of id _ _ g3 n3 ?_⟩
  · unfold NT.scalar
    rw [if_neg (by simp [hv, hc])]
    simp only [timeStamp_eq, Res.bind_ok, as_def, harr]
    change (make .Struct id K >>= _) = _
    rw [make_good id K gK nK, Res.bind_ok, e1, Res.bind_ok, e2, Res.bind_ok, e3]
  · rw [rows_append, rows_append, rows_append]
    unfold scalarRows
    have r0 : rows [] K = ⟨txt "value", o.value, []⟩ :: (alarmRows ++ timeRows) := rfl
    have r2 : rows [] (ctrlOf o e) = if o.control && isNumber e then
        [⟨txt "control", .Struct, []⟩, ⟨txt "control.limitLow", e, []⟩, ⟨txt "control.limitHigh", e, []⟩, ⟨txt "control.minStep", e, []⟩] else [] := by
      unfold ctrlOf; cases o.control && isNumber e <;> rfl
    have r3 : rows [] (valOf o e) = if o.valueAlarm && isNumber e then rows [] [valM e] else [] := by
      unfold valOf; cases o.valueAlarm && isNumber e <;> rfl
    rw [r0, r2, r3, disp_rows, val_rows]
    simp only [List.cons_append, List.append_assoc]

/-- no other types -/
theorem C97_scalar_refused (o : NT.Scalar) (he : elementOf o.value = none) : ∃ w, NT.scalar o = .throws w := by
  unfold NT.scalar
  rw [if_pos (not_prim he)]
  exact ⟨_, rfl⟩

/-- an array of numbers, with everything -/
example : elementOf .Int32A = some .Int32 ∧ isNumber .Int32 = true ∧
    (scalarRows { value := .Int32A, display := true, control := true, valueAlarm := true, form := true } .Int32).length = 33 ∧ elementOf .Struct = none := by decide

/-! ### NTTable -/

theorem name_ok {s : Str} (h : Name s) : nameValidate s = .ok () ∧ (0x2e : Wire.Byte) ∉ s := by
  obtain ⟨a, t, rfl, hall, ha⟩ := h
  have h0 : (0 : Wire.Byte) ∉ a :: t := by
    intro h
    rcases hall 0 h with h | h | h | h <;> revert h <;> decide
  have h2 : (0x2e : Wire.Byte) ∉ a :: t := by
    intro h
    rcases hall 0x2e h with h | h | h | h <;> revert h <;> decide
  have hcs : Wire.cstr (a :: t) = a :: t := by
    unfold Wire.cstr
    generalize a :: t = l at h0
    induction l with
    | nil => rfl
    | cons b l ih =>
      simp only [List.mem_cons, not_or] at h0
      rw [List.takeWhile_cons, if_pos (by simp only [bne_iff_ne]; exact fun e => h0.1 e.symm), ih h0.2]
  refine ⟨?_, h2⟩
  simp only [nameValidate]
  rw [hcs, if_neg (by simp), if_pos]
  rw [List.zipIdx_cons, List.all_cons, Bool.and_eq_true]
  constructor
  · rcases hall a (by simp) with h | h | h | h
    · exact absurd h ha
    · simp [h.1, h.2]
    · simp [h.1, h.2]
    · simp [h]
  · rw [List.all_eq_true]
    rintro ⟨c, i⟩ hc
    have hi : 1 ≤ i := (List.le_snd_of_mem_zipIdx hc)
    have hm : c ∈ t := (List.mem_zipIdx hc).2.2 ▸ List.getElem_mem _
    rcases hall c (by simp [hm]) with h | h | h | h
    · simp [h.1, h.2, Nat.lt_of_lt_of_le Nat.zero_lt_one hi]
    · simp [h.1, h.2]
    · simp [h.1, h.2]
    · simp [h]

theorem cell_ok {c : TypeCode} (h : elementOf c = some c) : c.valid = true ∧ c.isarray = false ∧ c.arrayOf = arrayOfScalar c ∧ (arrayOfScalar c).valid = true := by
  have all : ∀ n : Fin 256, elementOf ⟨UInt8.ofNat n.val⟩ = some ⟨UInt8.ofNat n.val⟩ →
      (⟨UInt8.ofNat n.val⟩ : TypeCode).valid = true ∧ (⟨UInt8.ofNat n.val⟩ : TypeCode).isarray = false ∧
      (⟨UInt8.ofNat n.val⟩ : TypeCode).arrayOf = arrayOfScalar ⟨UInt8.ofNat n.val⟩ ∧ (arrayOfScalar ⟨UInt8.ofNat n.val⟩).valid = true := by decide +kernel
  have := all ⟨c.code.toNat, c.code.toNat_lt⟩
  simp only [UInt8.ofNat_toNat] at this
  exact this h

def colOf (c : Column) : NT.Col := { code := arrayOfScalar c.cell, name := c.name, label := c.label.getD c.name }
def colM (c : Column) : Member := { code := arrayOfScalar c.cell, name := c.name }

theorem addAll_ok : ∀ (cols : List Column) (acc : List NT.Col), (∀ c ∈ cols, elementOf c.cell = some c.cell) → addAll acc cols = .ok (acc ++ cols.map colOf)
  | [], acc, _ => by simp [addAll]
  | c :: cols, acc, h => by
    obtain ⟨hv, ha, hr, _⟩ := cell_ok (h c (by simp))
    rw [addAll, NT.addColumn, if_neg (by simp [hv, ha]), Res.bind_ok, addAll_ok cols _ fun x hx => h x (by simp [hx]), hr]
    simp [colOf]

theorem columns_ok : ∀ cols : List Column, (∀ c ∈ cols, elementOf c.cell = some c.cell ∧ Name c.name) → NT.columns (cols.map colOf) = .ok (cols.map colM)
  | [], _ => rfl
  | c :: cols, h => by
    have hv : Member.validate { code := arrayOfScalar c.cell, name := c.name } = .ok () := (leaf_ok _ _ (name_ok (h c (by simp)).2).1 (cell_ok (h c (by simp)).1).2.2.2).1
    rw [List.map_cons, NT.columns]
    show (Member.validate { code := arrayOfScalar c.cell, name := c.name } >>= _) = _
    rw [hv, Res.bind_ok, columns_ok cols fun x hx => h x (by simp [hx])]
    rfl

theorem rows_cols (pre : Str) (cols : List Column) : rows pre (cols.map colM) = cols.map fun c => ⟨pre ++ c.name, arrayOfScalar c.cell, []⟩ := by
  induction cols with
  | nil => rfl
  | cons c t ih => rw [List.map_cons, rows, ih]; rfl

/-- NTTable, and its labels -/
theorem C97_table (cols : List Column) (h : GoodColumns cols) :
    ∃ cs d, addAll [] cols = .ok cs ∧ NT.tableLabels cs = .ok (d, labelsOf cols) ∧ Is d (txt "epics:nt/NTTable:1.0") (tableRows cols) := by
  obtain ⟨h1, h2⟩ := h
  have hkids : ∀ k ∈ cols.map colM, Good k := by
    intro k hk
    obtain ⟨c, hc, rfl⟩ := List.mem_map.1 hk
    obtain ⟨n1, n2⟩ := name_ok (h1 c hc).2
    exact ⟨leaf_ok _ _ n1 (cell_ok (h1 c hc).1).2.2.2, n2, leaf_distinct _ _⟩
  have hnk : ((cols.map colM).map Member.name).Nodup := by
    rw [List.map_map]
    exact h2
  have hval : Good { code := .Struct, name := lit "value", children := cols.map colM } := good_struct _ _ _ rfl (by decide) hkids hnk
  have hk : ∀ k ∈ [fld .StringA "labels", { code := .Struct, name := lit "value", children := cols.map colM }, fld .String "descriptor", alarmM, timeM], Good k :=
    all_cons (good_fld _ _ rfl rfl (by decide)) (all_cons hval (all_cons (good_fld _ _ rfl rfl (by decide)) (all_cons good_alarm (all_cons good_time all_nil))))
  have hn : (([fld .StringA "labels", { code := .Struct, name := lit "value", children := cols.map colM }, fld .String "descriptor", alarmM, timeM] : List Member).map Member.name).Nodup := by
    show ([lit "labels", lit "value", lit "descriptor", lit "alarm", lit "timeStamp"] : List Str).Nodup
    decide
  refine ⟨_, _, addAll_ok cols [] (fun c hc => (h1 c hc).1), ?_, is_of (lit "epics:nt/NTTable:1.0") _ _ hk hn ?_⟩
  · have hv : Member.validate { code := .Struct, name := lit "value", children := cols.map colM } = .ok () := hval.1.1
    unfold NT.tableLabels NT.table
    rw [List.nil_append, columns_ok cols h1, Res.bind_ok, hv]
    simp only [alarm_eq, timeStamp_eq, Res.bind_ok, as_def]
    change (make .Struct _ [fld .StringA "labels", { code := .Struct, name := lit "value", children := cols.map colM }, fld .String "descriptor", alarmM, timeM] >>= _) = _
    rw [make_good _ _ hk hn, Res.bind_ok]
    have hl : (cols.map colOf).map NT.Col.label = labelsOf cols := by
      unfold labelsOf
      rw [List.map_map]
      apply List.map_congr_left
      intro c _
      show c.label.getD c.name = _
      cases c.label <;> rfl
    rw [hl]
  · unfold tableRows
    show _ :: (_ :: (rows (txt "value.") (cols.map colM)) ++ rows [] [fld .String "descriptor", alarmM, timeM]) = _
    rw [rows_cols]
    simp only [List.cons_append, List.nil_append, List.append_assoc]
    rfl

/-- two columns, one with a label -/
def twoCols : List Column := [{ cell := .Int32, name := txt "ts", label := some (txt "Time stamp") }, { cell := .String, name := txt "x2", label := none }]

example : GoodColumns twoCols ∧ labelsOf twoCols = [txt "Time stamp", txt "x2"] := by
  refine ⟨⟨?_, by decide⟩, by decide⟩
  intro c hc
  simp only [twoCols, List.mem_cons, List.not_mem_nil, or_false] at hc
  rcases hc with rfl | rfl
  · exact ⟨by decide, _, _, rfl, by decide, by decide⟩
  · exact ⟨by decide, _, _, rfl, by decide, by decide⟩

/-! ### NTURI -/

theorem C97_uri (args : List Member) (h : ∀ k ∈ args, Name k.name ∧ Validated k ∧ DistinctNames k) (hn : (args.map Member.name).Nodup) :
    ∃ d, NT.uri args = .ok d ∧ Is d (txt "epics:nt/NTURI:1.0") (uriRows args) := by
  have hq : Good { code := .Struct, name := lit "query", children := args } :=
    good_struct _ _ _ rfl (by decide) (fun k hk => ⟨(h k hk).2.1, (name_ok (h k hk).1).2, (h k hk).2.2⟩) hn
  have hk : ∀ k ∈ [fld .String "scheme", fld .String "authority", fld .String "path", { code := .Struct, name := lit "query", children := args }], Good k :=
    all_cons (good_fld _ _ rfl rfl (by decide)) (all_cons (good_fld _ _ rfl rfl (by decide)) (all_cons (good_fld _ _ rfl rfl (by decide)) (all_cons hq all_nil)))
  have hd : (([fld .String "scheme", fld .String "authority", fld .String "path", { code := .Struct, name := lit "query", children := args }] : List Member).map Member.name).Nodup := by
    show ([lit "scheme", lit "authority", lit "path", lit "query"] : List Str).Nodup
    decide
  refine ⟨_, ?_, is_of (lit "epics:nt/NTURI:1.0") _ _ hk hd ?_⟩
  · have hv : Member.validate { code := .Struct, name := lit "query", children := args } = .ok () := hq.1.1
    unfold NT.uri
    rw [hv, Res.bind_ok]
    exact make_good _ _ hk hd
  · unfold uriRows
    show _ :: _ :: _ :: ((_ :: rows (txt "query.") args) ++ []) = _
    rw [List.append_nil]
    rfl

example : ∀ k ∈ [NT.fld .Int32 "a", NT.fld .String "b"], Name k.name ∧ Validated k ∧ DistinctNames k := by
  refine all_cons ⟨⟨_, _, rfl, by decide, by decide⟩, leaf_ok _ _ rfl rfl, leaf_distinct _ _⟩
    (all_cons ⟨⟨_, _, rfl, by decide, by decide⟩, leaf_ok _ _ rfl rfl, leaf_distinct _ _⟩ all_nil)

/-! ### what is not so -/

/-- a table may be given two columns of the same name: the program stops at an assertion when the type is built -/
theorem C97_table_duplicate : ∃ cs, addAll [] [{ cell := .Int32, name := txt "a", label := none }, { cell := .Int32, name := txt "a", label := some (txt "b") }] = .ok cs ∧
    NT.table cs = .ub := ⟨_, rfl, rfl⟩

/-- NTNDArray -/
theorem C97_ndarray : ∃ d, NT.ndarray = .ok d ∧
    Is d (txt "epics:nt/NTNDArray:1.0") (ndRows (ndChoices.map fun c => (c.1, if c.2 = .Float32A then .Float32 else if c.2 = .Float64A then .Float64 else c.2))) := by
  refine ⟨_, rfl, _, _, rfl, rfl, rfl, rfl, rfl, by decide +kernel, ?_, ?_⟩
  · repeat' first | exact trivial | rfl | refine And.intro ?_ ?_
  · repeat' first | exact trivial | decide | refine And.intro ?_ ?_

/-- the choices for real numbers are not arrays -/
theorem C97_ndarray_float (d : TypeDef.Def) (h : NT.ndarray = .ok d) : ¬Is d (txt "epics:nt/NTNDArray:1.0") (ndRows ndChoices) := by
  obtain ⟨d', h', hi⟩ := C97_ndarray
  rw [h] at h'
  cases h'
  rintro ⟨m, _, hm, _, _, _, _, hr, _⟩
  obtain ⟨m', _, hm', _, _, _, _, hr', _⟩ := hi
  rw [hm] at hm'
  cases hm'
  rw [hr] at hr'
  revert hr'
  decide +kernel

/-- a column may be a structure without fields -/
theorem C97_table_compound : ∃ cs d, addAll [] [{ cell := .Struct, name := txt "a", label := none }] = .ok cs ∧ NT.table cs = .ok d ∧
    (∃ m, d.top = some m ∧ (⟨txt "value.a", .StructA, []⟩ : Row) ∈ rows [] m.children) := by
  refine ⟨_, _, rfl, rfl, _, rfl, by decide⟩

end Pvxs.Props.NT
