import Verif.Spec.GroupType
import Verif.Props.NT
/-
C98: the type of the value of a group.
-/
namespace Pvxs.Props.GroupType
open Pvxs.GroupType Pvxs.TypeDef Pvxs.NT Spec.GroupType Spec.TypeDef Spec.NT Spec Pvxs.Props.TypeDef
open Pvxs.FieldName (Comp)

/-! ### looking up fields -/

def look (ms : List Member) (p : List Str) : Option About := (fieldAt ms p).map about

theorem find_mem {ms : List Member} (h : (ms.map Member.name).Nodup) {m : Member} (hm : m ∈ ms) : (ms.find? fun x => x.name = m.name) = some m := by
  induction ms with
  | nil => cases hm
  | cons a t ih =>
    simp only [List.map_cons, List.nodup_cons] at h
    rcases List.mem_cons.1 hm with rfl | hm
    · simp
    · have : a.name ≠ m.name := fun e => h.1 (e ▸ List.mem_map_of_mem hm)
      rw [List.find?_cons_of_neg (by simpa using this)]
      exact ih h.2 hm

theorem find_none {ms : List Member} {n : Str} (h : n ∉ ms.map Member.name) : (ms.find? fun x => x.name = n) = none := by
  rw [List.find?_eq_none]
  intro x hx
  simp only [decide_eq_true_eq]
  rintro rfl
  exact h (List.mem_map_of_mem hx)

theorem look_nil (ms : List Member) : look ms [] = none := by cases ms <;> rfl

theorem look_mem {ms : List Member} (h : (ms.map Member.name).Nodup) {m : Member} (hm : m ∈ ms) (p : List Str) :
    look ms (m.name :: p) = if p = [] then some (about m) else look m.children p := by
  cases p with
  | nil =>
    rw [if_pos rfl]
    show (fieldAt ms [m.name]).map about = _
    rw [fieldAt, find_mem h hm]
    rfl
  | cons n q =>
    rw [if_neg (by simp)]
    show (fieldAt ms (m.name :: n :: q)).map about = _
    rw [fieldAt, find_mem h hm]
    · rfl
    · intro h; cases h

theorem look_none {ms : List Member} {n : Str} (h : n ∉ ms.map Member.name) (p : List Str) : look ms (n :: p) = none := by
  cases p with
  | nil =>
    show (fieldAt ms [n]).map about = _
    rw [fieldAt, find_none h]
    rfl
  | cons a q =>
    show (fieldAt ms (n :: a :: q)).map about = _
    rw [fieldAt, find_none h]
    · rfl
    · intro h; cases h

theorem later_none (x : Option About) : later x none = x := by cases x <;> rfl

theorem later_assoc (x y z : Option About) : later (later x y) z = later x (later y z) := by
  rcases x with _ | ⟨c1, i1⟩ <;> rcases y with _ | ⟨c2, i2⟩ <;> rcases z with _ | ⟨c3, i3⟩ <;> try rfl
  simp only [later]
  by_cases h3 : i3 = []
  · simp [h3]
  · simp [h3]

/-- the fields of merged members -/
theorem merged_at (p : List Str) : ∀ {old add new : List Member}, Merged old add new → Sep old → Sep add → Sep new → look new p = later (look old p) (look add p) := by
  induction p with
  | nil => intro old add new _ _ _ _; simp only [look_nil]; rfl
  | cons n q ih =>
    intro old add new hM ho ha hn
    have hM' := hM
    obtain ⟨_, _, _, sub, order, kept, added, deeper, joined⟩ := hM'
    by_cases h1 : n ∈ old.map Member.name
    · obtain ⟨c, hc, rfl⟩ := List.mem_map.1 h1
      by_cases h2 : c.name ∈ add.map Member.name
      · obtain ⟨a, ha', e⟩ := List.mem_map.1 h2
        have hj := joined c hc a ha' e.symm
        have l1 := look_mem hn.1 hj q
        have l2 := look_mem ho.1 hc q
        have l3 := look_mem ha.1 ha' q
        rw [e] at l3
        rw [show ({ code := a.code, name := c.name, id := if a.id = [] then c.id else a.id, children := sub c a } : Member).name = c.name from rfl] at l1
        rw [l1, l2, l3]
        by_cases hq : q = []
        · simp only [if_pos hq]
          rfl
        · simp only [if_neg hq]
          exact ih (deeper c hc a ha' e.symm) (ho.kids hc) (ha.kids ha') (hn.kids hj)
      · rw [look_none h2, later_none, look_mem hn.1 (kept c hc h2) q, look_mem ho.1 hc q]
    · rw [look_none h1]
      by_cases h2 : n ∈ add.map Member.name
      · obtain ⟨a, ha', rfl⟩ := List.mem_map.1 h2
        rw [look_mem hn.1 (added a ha' h1) q, look_mem ha.1 ha' q]
        rfl
      · rw [look_none h2, look_none]
        · rfl
        · rw [order, List.mem_append, List.mem_filter]
          rintro (h | h)
          · exact h1 h
          · exact h2 h.1

theorem adoptAll_cons (cs : List Member) (a : Member) (as : List Member) : adoptAll cs (a :: as) = (adoptAll cs [a] >>= fun ks => adoptAll ks as) := by
  rw [adoptAll, adoptAll]
  cases adopt cs a with
  | ok ks => simp only [Res.bind_ok]; rw [adoptAll]; rfl
  | throws w => rfl
  | ub => rfl

/-- the fields after members were added one after the other -/
theorem adopt_fields : ∀ (as cs ks : List Member), Sep cs → (∀ a ∈ as, Sep [a]) → adoptAll cs as = .ok ks →
    ∀ p, look ks p = (as.map fun a => look [a] p).foldl later (look cs p)
  | [], cs, ks, _, _, h => by
    rw [adoptAll] at h
    cases h
    intro p
    rfl
  | a :: as, cs, ks, hs, ha, h => by
    rw [adoptAll_cons] at h
    cases h1 : adoptAll cs [a] with
    | ok k1 =>
      rw [h1, Res.bind_ok] at h
      obtain ⟨hM, hs1⟩ := merged_of hs (ha a (by simp)) h1
      intro p
      rw [adopt_fields as k1 ks hs1 (fun b hb => ha b (by simp [hb])) h p, merged_at p hM hs (ha a (by simp)) hs1]
      rfl
    | throws w => rw [h1] at h; cases h
    | ub => rw [h1] at h; cases h

/-- members which agree field by field can be merged -/
theorem mergeable_of (a : Member) : ∀ cs : List Member, Sep cs → Sep a.children → (∀ c ∈ cs, Validated c) →
    (∀ p x y, look cs p = some x → look a.children p = some y → SameKind x.1 y.1) → Mergeable cs a.children ∧ KeepsMembers cs a.children := by
  induction a using Member.ind with
  | h a ih =>
    intro cs hs hsa hv hk
    have key : ∀ c ∈ cs, ∀ b ∈ a.children, c.name = b.name → SameKind c.code b.code := by
      intro c hc b hb e
      refine hk [c.name] (about c) (about b) ?_ ?_
      · rw [look_mem hs.1 hc, if_pos rfl]
      · rw [e, look_mem hsa.1 hb, if_pos rfl]
    have deep : ∀ c ∈ cs, ∀ b ∈ a.children, c.name = b.name → Mergeable c.children b.children ∧ KeepsMembers c.children b.children := by
      intro c hc b hb e
      refine ih b hb c.children (hs.kids hc) (hsa.kids hb) (validated_parts (hv c hc)).2.2.2.2 ?_
      intro p x y hx hy
      have hp : p ≠ [] := by rintro rfl; rw [look_nil] at hx; cases hx
      refine hk (c.name :: p) x y ?_ ?_
      · rw [look_mem hs.1 hc, if_neg hp]; exact hx
      · rw [e, look_mem hsa.1 hb, if_neg hp]; exact hy
    refine ⟨.mk _ _ (fun c hc b hb e => (key c hc b hb e).2) fun c hc b hb e => (deep c hc b hb e).1,
      .mk _ _ (fun c hc b hb e h => ?_) (fun c hc b hb e h => ?_) fun c hc b hb e => (deep c hc b hb e).2⟩
    · exact (key c hc b hb e).1.1 ((validated_parts (hv c hc)).2.2.2.1.resolve_left h)
    · exact (key c hc b hb e).1.1 ((validated_parts (hv c hc)).2.2.1.resolve_left h)

theorem adopt_total : ∀ (as cs : List Member), Sep cs → (∀ c ∈ cs, Validated c) → (∀ a ∈ as, Sep [a] ∧ Validated a) →
    (∀ a ∈ as, ∀ p x y, look cs p = some x → look [a] p = some y → SameKind x.1 y.1) →
    (∀ a ∈ as, ∀ b ∈ as, ∀ p x y, look [a] p = some x → look [b] p = some y → SameKind x.1 y.1) →
    ∃ ks, adoptAll cs as = .ok ks ∧ Sep ks ∧ ∀ k ∈ ks, Validated k
  | [], cs, hs, hv, _, _, _ => ⟨cs, by rw [adoptAll], hs, hv⟩
  | a :: as, cs, hs, hv, ha, hca, haa => by
    obtain ⟨sa, va⟩ := ha a (by simp)
    obtain ⟨hm, hk⟩ := mergeable_of { code := .Struct, name := [], id := [], children := [a] } cs hs sa hv (hca a (by simp))
    have va' : ∀ x ∈ [a], Validated x := by intro x hx; rw [List.mem_singleton.1 hx]; exact va
    obtain ⟨k1, e1, _⟩ := (decides_all (validatedAll_of hv) (validatedAll_of va') hs sa).1 hm
    obtain ⟨hM, hs1⟩ := merged_of hs sa e1
    have hv1 := merged_validated hM hs1 hk hv va'
    obtain ⟨ks, e2, r⟩ := adopt_total as k1 hs1 hv1 (fun b hb => ha b (by simp [hb])) (by
      intro b hb p x y hx hy
      rw [merged_at p hM hs sa hs1] at hx
      cases hc : look cs p with
      | none =>
        rw [hc] at hx
        exact haa a (by simp) b (by simp [hb]) p x y hx hy
      | some x1 =>
        cases hca' : look [a] p with
        | none =>
          rw [hc, hca'] at hx
          cases hx
          exact hca b (by simp [hb]) p _ y hc hy
        | some x2 =>
          rw [hc, hca'] at hx
          have : x.1 = x2.1 := by
            obtain ⟨c1, i1⟩ := x1
            obtain ⟨c2, i2⟩ := x2
            simp only [later, Option.some.injEq] at hx
            rw [← hx]
          rw [this]
          exact haa a (by simp) b (by simp [hb]) p x2 y hca' hy) (fun b hb d hd => haa b (by simp [hb]) d (by simp [hd]))
    exact ⟨ks, by rw [adoptAll_cons, e1, Res.bind_ok, e2], r⟩

/-! ### placing members -/

def node (c : Comp) (kids : List Member) : Member := { code := wayCode c, name := c.name, children := kids }

def nest : List Comp → List Member → List Member
  | [], leaf => leaf
  | c :: way, leaf => [node c (nest way leaf)]

theorem nest_snoc (c : Comp) (k : List Member) : ∀ way : List Comp, nest (way ++ [c]) k = nest way [node c k]
  | [] => rfl
  | a :: way => by rw [List.cons_append, nest, nest_snoc c k way]; rfl

theorem node_valid {c : Comp} {kids : List Member} (hn : Name c.name) (hk : ∀ k ∈ kids, Validated k) : Validated (node c kids) := by
  refine validate_of ?_ ?_ (Or.inl rfl) (Or.inr ?_) hk
  · show ifNamed c.name (nameValidate c.name) = _
    unfold ifNamed
    rw [(NT.name_ok hn).1]
    simp
  · show (wayCode c).valid = true
    unfold wayCode
    split <;> rfl
  · show Holds (wayCode c)
    unfold wayCode
    split
    · exact Or.inr (Or.inr (Or.inl rfl))
    · exact Or.inl rfl

theorem enclose_ok {c : Comp} {kids : List Member} (hn : Name c.name) (hk : ∀ k ∈ kids, Validated k) : enclose c kids = .ok [node c kids] := by
  have h : Member.validate (node c kids) = .ok () := ((validated_iff _).1 (node_valid hn hk)).1
  unfold enclose
  change (Member.validate (node c kids) >>= _) = _
  rw [h]
  rfl

theorem wrap_ok (leaf : List Member) : ∀ (cs : List Comp) (kids : List Member), (∀ c ∈ cs, Name c.name) → (∀ k ∈ kids, Validated k) →
    wrap leaf cs false kids = .ok (nest cs.reverse kids)
  | [], kids, _, _ => rfl
  | c :: cs, kids, hn, hk => by
    rw [wrap, enclose_ok (hn c (by simp)) hk, Res.bind_ok, wrap_ok leaf cs [node c kids] (fun x hx => hn x (by simp [hx])) (by
      intro k hk'
      rw [List.mem_singleton.1 hk']
      exact node_valid (hn c (by simp)) hk), List.reverse_cons, nest_snoc]

theorem name_ne {s : Str} (h : Name s) : s ≠ [] := by
  obtain ⟨a, t, rfl, _⟩ := h
  simp

theorem not_empty {path : List Comp} (hn : ∀ c ∈ path, Name c.name) (h : path ≠ []) : isEmpty path = false := by
  match path, h with
  | [c], _ =>
    have := name_ne (hn c (by simp))
    simpa [isEmpty] using this
  | a :: b :: t, _ => rfl

theorem setField_leaf {path : List Comp} {leaf : List Member} (hn : ∀ c ∈ path, Name c.name) (h : path ≠ []) (hk : ∀ k ∈ leaf, Validated k) :
    setField path leaf true = .ok (nest path.dropLast leaf) := by
  unfold setField
  rw [not_empty hn h]
  obtain ⟨init, l, rfl⟩ : ∃ init l, path = init ++ [l] := ⟨path.dropLast, path.getLast h, (List.dropLast_concat_getLast h).symm⟩
  simp only [Bool.false_eq_true, if_false, if_true, List.reverse_append, List.reverse_cons, List.reverse_nil, List.nil_append, List.singleton_append, wrap]
  rw [wrap_ok leaf init.reverse leaf (fun c hc => hn c (by simp only [List.mem_reverse] at hc; simp [hc])) hk, List.reverse_reverse, List.dropLast_concat]

theorem setField_meta {path : List Comp} {leaf : List Member} (hn : ∀ c ∈ path, Name c.name) (hk : ∀ k ∈ leaf, Validated k) :
    setField path leaf false = .ok (nest path leaf) := by
  unfold setField
  by_cases h : path = []
  · subst h; rfl
  · rw [not_empty hn h]
    simp only [Bool.false_eq_true, if_false]
    rw [wrap_ok leaf path.reverse leaf (fun c hc => hn c (List.mem_reverse.1 hc)) hk, List.reverse_reverse]

theorem nest_valid {leaf : List Member} (hk : ∀ k ∈ leaf, Validated k) : ∀ way : List Comp, (∀ c ∈ way, Name c.name) → ∀ k ∈ nest way leaf, Validated k
  | [], _ => hk
  | c :: way, hn => by
    intro k h
    rw [nest, List.mem_singleton] at h
    rw [h]
    exact node_valid (hn c (by simp)) (nest_valid hk way fun x hx => hn x (by simp [hx]))

theorem nest_sep {leaf : List Member} (hk : Sep leaf) : ∀ way : List Comp, (∀ c ∈ way, Name c.name) → Sep (nest way leaf)
  | [], _ => hk
  | c :: way, hn => by
    have := nest_sep hk way fun x hx => hn x (by simp [hx])
    refine Sep.of (by simp [nest]) ?_
    intro k h
    rw [nest, List.mem_singleton] at h
    rw [h]
    exact ⟨(NT.name_ok (hn c (by simp))).2, (distinct_iff _).2 this⟩

theorem look_nest (leaf : List Member) : ∀ (way : List Comp) (p : List Str), look (nest way leaf) p = placed way leaf p
  | [], p => rfl
  | c :: way, [] => by rw [look_nil]; rfl
  | c :: way, n :: p => by
    by_cases h : n = c.name
    · subst h
      have l := look_mem (ms := [node c (nest way leaf)]) (by simp) (List.mem_singleton.2 rfl) p
      rw [show (node c (nest way leaf)).name = c.name from rfl] at l
      rw [nest, l]
      cases p with
      | nil => rw [if_pos rfl, placed, if_pos rfl]; rfl
      | cons a q =>
        rw [if_neg (by simp), placed, if_pos rfl]
        · exact look_nest leaf way (a :: q)
        · intro h; cases h
    · rw [nest, look_none (by simpa [node] using h)]
      cases p with
      | nil => rw [placed, if_neg h]
      | cons a q =>
        rw [placed, if_neg h]
        intro h; cases h

/-! ### the fields of one mapping -/

/-- what was added for a mapping -/
def Adds (m : Mapping) (new : List Member) : Prop :=
  (∀ a ∈ new, Sep [a] ∧ Validated a) ∧ (∀ a ∈ new, ∀ p x, look [a] p = some x → given m p = some x) ∧
  (∀ p acc, (new.map fun a => look [a] p).foldl later acc = later acc (given m p))

theorem sep_one {a : Member} (h1 : (0x2e : Wire.Byte) ∉ a.name) (h2 : DistinctNames a) : Sep [a] :=
  Sep.of (by simp) (by intro c hc; rw [List.mem_singleton.1 hc]; exact ⟨h1, h2⟩)

/-- one member, with the fields which the mapping calls for -/
theorem adds_one {m : Mapping} {way : List Comp} {l : Member} (hn : ∀ c ∈ way, Name c.name) (hd : (0x2e : Wire.Byte) ∉ l.name) (hv : Validated l)
    (hs : DistinctNames l) (hg : ∀ p, given m p = placed way [l] p) : Adds m (nest way [l]) := by
  have hl : ∀ k ∈ [l], Validated k := by intro k hk; rw [List.mem_singleton.1 hk]; exact hv
  have one : ∃ x, nest way [l] = [x] := by cases way <;> exact ⟨_, rfl⟩
  obtain ⟨x, hx⟩ := one
  have hS := nest_sep (sep_one hd hs) way hn
  have hV := nest_valid hl way hn
  have hL := look_nest [l] way
  rw [hx] at hS hV hL ⊢
  refine ⟨?_, ?_, ?_⟩
  · intro a ha
    rw [List.mem_singleton.1 ha]
    exact ⟨hS, hV x (by simp)⟩
  · intro a ha p y hy
    rw [List.mem_singleton.1 ha, hL] at hy
    rw [hg]
    exact hy
  · intro p acc
    rw [hg, ← hL]
    rfl

theorem named_valid {t : Member} {n : Str} (hn : Name n) (hv : Validated t) : Validated { t with name := n } := by
  obtain ⟨_, h2, h3, h4, h5⟩ := validated_parts hv
  refine validate_of ?_ h2 h3 h4 h5
  show ifNamed n (nameValidate n) = _
  unfold ifNamed
  rw [(NT.name_ok hn).1]
  simp

theorem value_type (ch : RecVal.Chan) : ∃ e, elementOf (RecVal.valueType ch) = some e ∧ (ch.type = .string → isNumber e = false) := by
  obtain ⟨ty, el, sz, tx, ct⟩ := ch
  unfold RecVal.valueType
  simp only
  split
  · exact ⟨.String, rfl, fun _ => rfl⟩
  · split <;> cases ty <;> exact ⟨_, rfl, fun h => by first | rfl | cases h⟩

/-- NTScalar of strings: with or without limits for alarms, there are none -/
theorem scalar_string {o : NT.Scalar} {e : TypeCode} (he : elementOf o.value = some e) (h : isNumber e = false) : NT.scalar { o with valueAlarm := false } = NT.scalar { o with valueAlarm := true } := by
  have hn : NT.isNumeric o.value = false := by rw [(NT.prim he).2.2.2.2.1, h]
  unfold NT.scalar NT.addValueAlarm
  simp only [hn, Bool.and_false]
  rfl

theorem typeDef_ok (ch : RecVal.Chan) : ∃ d t, typeDefFor ch = .ok d ∧ d.top = some t ∧ Validated t ∧ DistinctNames t ∧
    topOf (if ch.type = .enum then NT.enum else NT.scalar { value := RecVal.valueType ch, display := true, control := true, valueAlarm := true, form := true }) = some t := by
  unfold typeDefFor
  by_cases h : ch.type = .enum
  · simp only [if_pos h]
    obtain ⟨d, hd, m, t, h1, h2, h3, h4, h5, h6, h7, h8⟩ := NT.C97_enum
    exact ⟨d, m, hd, h1, h7, h8, by rw [hd]; exact h1⟩
  · simp only [if_neg h]
    obtain ⟨e, he, hs⟩ := value_type ch
    have hd : NT.scalar { value := RecVal.valueType ch, display := true, control := true, valueAlarm := decide (ch.type ≠ .string), form := true } =
        NT.scalar { value := RecVal.valueType ch, display := true, control := true, valueAlarm := true, form := true } := by
      by_cases h' : ch.type = .string
      · rw [show decide (ch.type ≠ .string) = false by simp [h']]
        exact scalar_string (o := { value := RecVal.valueType ch, display := true, control := true, valueAlarm := true, form := true }) he (hs h')
      · rw [show decide (ch.type ≠ .string) = true by simp [h']]
    obtain ⟨d, hd', m, t, h1, h2, h3, h4, h5, h6, h7, h8⟩ := NT.C97_scalar
      { value := RecVal.valueType ch, display := true, control := true, valueAlarm := true, form := true } e he
    exact ⟨d, m, by rw [hd, hd'], h1, h7, h8, by rw [hd']; exact h1⟩

theorem given_leaf {m : Mapping} {c : Comp} {t : Member} (hl : m.path.getLast? = some c) (ht : leafType c m.what = some t) (p : List Str) :
    given m p = placed m.path.dropLast [{ t with name := c.name }] p := by
  unfold given
  rw [hl]
  cases hw : m.what with
  | proc => rw [hw] at ht; cases ht
  | metadata => rw [hw] at ht; cases ht
  | _ => rw [hw] at ht; simp only [ht]

theorem dropLast_names {m : Mapping} (h : ∀ c ∈ m.path, Name c.name) : ∀ c ∈ m.path.dropLast, Name c.name := fun c hc => h c (List.dropLast_subset _ hc)

/-- a mapping which leads to a field -/
theorem leaf_adds {m : Mapping} {c : Comp} {t : Member} (hn : ∀ c ∈ m.path, Name c.name) (hl : m.path.getLast? = some c) (ht : leafType c m.what = some t) (hv : Validated t)
    (hd : DistinctNames t) : setField m.path [{ t with name := c.name }] true = .ok (nest m.path.dropLast [{ t with name := c.name }]) ∧
      Adds m (nest m.path.dropLast [{ t with name := c.name }]) := by
  have hc : c ∈ m.path := List.mem_of_getLast? hl
  have hp : m.path ≠ [] := by rintro h; rw [h] at hl; cases hl
  have hv' : Validated { t with name := c.name } := named_valid (hn c hc) hv
  refine ⟨setField_leaf hn hp (by intro k hk; rw [List.mem_singleton.1 hk]; exact hv'), adds_one (dropLast_names hn) (NT.name_ok (hn c hc)).2 hv' ?_ (given_leaf hl ht)⟩
  exact (distinct_iff _).2 ((distinct_iff t).1 hd)

theorem metaMembers_eq : metaMembers = .ok metaFields := rfl

theorem meta_sep : Sep metaFields := Sep.of (by decide) (NT.all_cons (P := fun c => (0x2e : Wire.Byte) ∉ c.name ∧ DistinctNames c) NT.good_alarm.2
  (NT.all_cons NT.good_time.2 NT.all_nil))

theorem meta_valid : ∀ k ∈ metaFields, Validated k := NT.all_cons (P := Validated) NT.good_alarm.1 (NT.all_cons NT.good_time.1 NT.all_nil)

theorem meta_adds {m : Mapping} (hn : ∀ c ∈ m.path, Name c.name) (hw : m.what = .metadata) : Adds m (nest m.path metaFields) := by
  have hg : ∀ p, given m p = placed m.path metaFields p := by intro p; unfold given; rw [hw]
  cases hp : m.path with
  | cons c way =>
    have hS := nest_sep meta_sep m.path hn
    have hV := nest_valid meta_valid m.path hn
    have hL := look_nest metaFields m.path
    rw [hp] at hS hV hL hg
    refine ⟨?_, ?_, ?_⟩
    · intro a ha
      rw [nest, List.mem_singleton] at ha
      rw [ha]
      exact ⟨hS, hV _ (by simp [nest])⟩
    · intro a ha p y hy
      rw [nest, List.mem_singleton] at ha
      rw [hg, ← hL, nest, ← ha]
      exact hy
    · intro p acc
      rw [hg, ← hL]
      rfl
  | nil =>
    rw [hp] at hg
    have two : ∀ p acc, (metaFields.map fun a => look [a] p).foldl later acc = later acc (look metaFields p) := by
      intro p acc
      show later (later acc (look [NT.alarmM] p)) (look [NT.timeM] p) = later acc (look [NT.alarmM, NT.timeM] p)
      rw [later_assoc]
      congr 1
      cases p with
      | nil => simp only [look_nil]; rfl
      | cons n q =>
        by_cases h1 : n = NT.alarmM.name
        · subst h1
          rw [look_none (ms := [NT.timeM]) (by decide), later_none, look_mem (ms := [NT.alarmM]) (by decide) (by simp), look_mem (ms := [NT.alarmM, NT.timeM]) (by decide) (by simp)]
        · rw [look_none (ms := [NT.alarmM]) (by simpa using h1)]
          by_cases h2 : n = NT.timeM.name
          · subst h2
            rw [look_mem (ms := [NT.timeM]) (by decide) (by simp), look_mem (ms := [NT.alarmM, NT.timeM]) (by decide) (by simp)]
            rfl
          · rw [look_none (ms := [NT.timeM]) (by simpa using h2), look_none (ms := [NT.alarmM, NT.timeM]) (by simp [h1, h2])]
            rfl
    refine ⟨?_, ?_, ?_⟩
    · intro a ha
      exact ⟨sep_one (distinctAll_mem meta_sep.2 a ha).1 (distinctAll_mem meta_sep.2 a ha).2, meta_valid a ha⟩
    · intro a ha p y hy
      rw [hg]
      show look metaFields p = some y
      cases p with
      | nil => rw [look_nil] at hy; cases hy
      | cons n q =>
        by_cases h : n = a.name
        · subst h
          rw [look_mem (ms := [a]) (by simp) (by simp)] at hy
          have ha' : a ∈ metaFields := ha
          rw [look_mem meta_sep.1 ha', hy]
        · rw [look_none (by simpa using h)] at hy
          cases hy
    · intro p acc
      rw [hg]
      exact two p acc

theorem members_ok {m : Mapping} (h : Proper m) : ∃ new, membersFor m = .ok new ∧ Adds m new := by
  obtain ⟨hn, h0, hst, hct⟩ := h
  by_cases hp : m.path = []
  · rcases h0 hp with hw | hw
    · have hm := meta_adds hn hw
      refine ⟨_, ?_, hm⟩
      unfold membersFor
      rw [hw]
      simp only [metaMembers_eq, Res.bind_ok]
      exact setField_meta hn meta_valid
    · refine ⟨[], ?_, (fun a h => absurd h List.not_mem_nil), (fun a h => absurd h List.not_mem_nil), ?_⟩
      · unfold membersFor; rw [hw]
      · intro p acc
        have : given m p = none := by unfold given; rw [hw]
        rw [this, later_none]
        rfl
  · obtain ⟨c, hc⟩ : ∃ c, m.path.getLast? = some c := ⟨_, List.getLast?_eq_some_getLast hp⟩
    have hcm : Name c.name := hn c (List.mem_of_getLast? hc)
    have hl : leafName m.path = .ok c.name := by unfold leafName; rw [hc]
    have he := not_empty hn hp
    cases hw : m.what with
    | metadata =>
      refine ⟨_, ?_, meta_adds hn hw⟩
      unfold membersFor
      rw [hw]
      simp only [metaMembers_eq, Res.bind_ok]
      exact setField_meta hn meta_valid
    | proc =>
      refine ⟨[], ?_, (fun a h => absurd h List.not_mem_nil), (fun a h => absurd h List.not_mem_nil), ?_⟩
      · unfold membersFor; rw [hw]
      · intro p acc
        have : given m p = none := by unfold given; rw [hw]
        rw [this, later_none]
        rfl
    | scalar ch =>
      obtain ⟨d, t, h1, h2, h3, h4, h5⟩ := typeDef_ok ch
      obtain ⟨r1, r2⟩ := leaf_adds hn hc (t := t) (by rw [hw]; exact h5) h3 h4
      refine ⟨_, ?_, r2⟩
      have ha : d.as c.name = .ok { t with name := c.name } := by unfold Def.as; rw [h2]
      unfold membersFor
      simp only [hw, he, Bool.false_eq_true, if_false, h1, Res.bind_ok, hl, ha]
      exact r1
    | plain ch =>
      obtain ⟨e, he', _⟩ := value_type ch
      have hv : (RecVal.valueType ch).valid = true := (NT.prim he').1
      have hvt : Validated { code := RecVal.valueType ch } := validate_of rfl hv (Or.inl rfl) (Or.inl rfl) (fun _ h => absurd h List.not_mem_nil)
      have hdt : DistinctNames { code := RecVal.valueType ch } := NT.leaf_distinct _ _
      obtain ⟨r1, r2⟩ := leaf_adds hn hc (t := { code := RecVal.valueType ch }) (by rw [hw]; rfl) hvt hdt
      refine ⟨_, ?_, r2⟩
      have hm : ∃ x, make (RecVal.valueType ch) [] [] = .ok { top := some { code := RecVal.valueType ch }, desc := x } := by
        have hb := build_total { code := RecVal.valueType ch } hvt hdt
        have hv' : Member.validate { code := RecVal.valueType ch } = .ok () := hvt.1
        refine ⟨some (flat { code := RecVal.valueType ch }), ?_⟩
        unfold make
        rw [hv', Res.bind_ok, hb]
        rfl
      obtain ⟨x, hm⟩ := hm
      unfold membersFor
      simp only [hw, he, Bool.false_eq_true, if_false, hm, Res.bind_ok, hl]
      exact r1
    | any =>
      have hvt : Validated { code := .Any } := by constructor <;> trivial
      obtain ⟨r1, r2⟩ := leaf_adds hn hc (t := { code := .Any }) (by rw [hw]; rfl) hvt (NT.leaf_distinct _ _)
      refine ⟨_, ?_, r2⟩
      have hv' : Member.validate { code := .Any, name := c.name } = .ok () := (named_valid hcm hvt).1
      unfold membersFor
      simp only [hw, he, Bool.false_eq_true, if_false, Res.bind_ok, hl, hv']
      exact r1
    | struct id =>
      have hlen := hst id hw
      have hpath : m.path = [c] := by
        cases hpp : m.path with
        | nil => exact absurd hpp hp
        | cons a t =>
          cases t with
          | nil => rw [hpp] at hc; simp only [List.getLast?_singleton, Option.some.injEq] at hc; rw [hc]
          | cons b t => rw [hpp] at hlen; simp at hlen
      have hvt : Validated { code := wayCode c, id := id } := by
        refine validate_of rfl ?_ (Or.inr ?_) (Or.inl rfl) (fun _ h => absurd h List.not_mem_nil)
        · show (wayCode c).valid = true
          unfold wayCode; split <;> rfl
        · show Holds (wayCode c)
          unfold wayCode; split
          · exact Or.inr (Or.inr (Or.inl rfl))
          · exact Or.inl rfl
      obtain ⟨r1, r2⟩ := leaf_adds hn hc (t := { code := wayCode c, id := id }) (by rw [hw]; rfl) hvt (by exact (distinct_iff _).2 ⟨List.nodup_nil, trivial⟩)
      refine ⟨_, ?_, r2⟩
      have hsm : structMember m.path id = { code := wayCode c, name := c.name, id := id } := by rw [hpath]; rfl
      have hv' : Member.validate { code := wayCode c, name := c.name, id := id } = .ok () := (named_valid hcm hvt).1
      unfold membersFor
      simp only [hw, hsm, hv', Res.bind_ok]
      exact r1
    | const t =>
      obtain ⟨hvt, hdt⟩ := hct t hw
      obtain ⟨r1, r2⟩ := leaf_adds hn hc (t := t) (by rw [hw]; rfl) hvt hdt
      refine ⟨_, ?_, r2⟩
      unfold membersFor
      simp only [hw, he, Bool.false_eq_true, if_false, Res.bind_ok, hl]
      exact r1

theorem not_record {a : Str} (h : a ≠ txt "record") : a ∉ [recordMember].map Member.name := by
  show a ∉ [txt "record"]
  simpa using h
theorem not_options {a : Str} (h : a ≠ txt "_options") : a ∉ recordMember.children.map Member.name := by
  show a ∉ [txt "_options"]
  simpa using h

theorem look_record (p : List Str) : look [recordMember] p = options p := by
  match p with
  | [] => rfl
  | [a] =>
    by_cases h : a = txt "record"
    · subst h; rfl
    · rw [look_none (not_record h)]
      unfold options
      simp [h]
  | [a, b] =>
    by_cases h : a = txt "record"
    · subst h
      by_cases h' : b = txt "_options"
      · subst h'; rfl
      · unfold options
        simp only [List.cons.injEq, h', and_false, and_true, reduceCtorEq, or_self, if_false]
        have l := look_mem (ms := [recordMember]) (by decide) (List.mem_singleton.2 rfl) [b]
        rw [if_neg (by simp)] at l
        exact l.trans (look_none (not_options h') [])
    · rw [look_none (not_record h)]
      unfold options
      simp [h]
  | a :: b :: c :: q =>
    by_cases h : a = txt "record"
    · subst h
      have l := look_mem (ms := [recordMember]) (by decide) (List.mem_singleton.2 rfl) (b :: c :: q)
      rw [if_neg (by simp)] at l
      refine l.trans ?_
      by_cases h' : b = txt "_options"
      · subst h'
        have l2 := look_mem (ms := recordMember.children) (by decide) (List.mem_singleton.2 rfl) (c :: q)
        rw [if_neg (by simp)] at l2
        refine l2.trans ?_
        have l3 := fun (x : Member) (hx : x ∈ [fld .Int32 "queueSize", fld .Bool "atomic"]) => look_mem (ms := [fld .Int32 "queueSize", fld .Bool "atomic"]) (by decide) hx q
        show look [fld .Int32 "queueSize", fld .Bool "atomic"] (c :: q) = _
        unfold options
        simp only [List.cons.injEq, reduceCtorEq, and_false, false_and, or_self, if_false, true_and]
        by_cases hc : c = txt "queueSize"
        · subst hc
          refine (l3 (fld .Int32 "queueSize") (by simp)).trans ?_
          cases q with
          | nil => rfl
          | cons x q => simp only [reduceCtorEq, if_false, and_false]; exact look_none (by simp [fld]) q
        · by_cases hc2 : c = txt "atomic"
          · subst hc2
            refine (l3 (fld .Bool "atomic") (by simp)).trans ?_
            cases q with
            | nil => rfl
            | cons x q => simp only [reduceCtorEq, if_false, and_false]; exact look_none (by simp [fld]) q
          · rw [look_none]
            · simp [hc, hc2]
            · show c ∉ [txt "queueSize", txt "atomic"]
              simp [hc, hc2]
      · rw [look_none (not_options h')]
        unfold options
        simp [h']
    · rw [look_none (not_record h)]
      unfold options
      simp [h]

/-! ### the type of the group -/

theorem gather_ok : ∀ (ms : List Mapping) (acc : List Member), (∀ m ∈ ms, Proper m) → ∃ new, gather acc ms = .ok (acc ++ new) ∧
    (∀ a ∈ new, (Sep [a] ∧ Validated a) ∧ ∃ m ∈ ms, ∀ p x, look [a] p = some x → given m p = some x) ∧
    (∀ p x, (new.map fun a => look [a] p).foldl later x = (ms.map fun m => given m p).foldl later x)
  | [], acc, _ => ⟨[], by simp [gather], (fun a h => absurd h List.not_mem_nil), fun _ _ => rfl⟩
  | m :: ms, acc, h => by
    obtain ⟨n1, e1, a1, a2, a3⟩ := members_ok (h m (by simp))
    obtain ⟨n2, e2, b1, b2⟩ := gather_ok ms (acc ++ n1) fun x hx => h x (by simp [hx])
    refine ⟨n1 ++ n2, ?_, ?_, ?_⟩
    · rw [gather, e1, Res.bind_ok, e2, List.append_assoc]
    · intro a ha
      rcases List.mem_append.1 ha with ha | ha
      · exact ⟨a1 a ha, m, by simp, a2 a ha⟩
      · obtain ⟨r1, m', hm', r2⟩ := b1 a ha
        exact ⟨r1, m', by simp [hm'], r2⟩
    · intro p x
      rw [List.map_append, List.foldl_append, a3, b2]
      rfl

theorem record_good : Sep [recordMember] ∧ Validated recordMember := by
  have g : NT.Good recordMember := NT.good_struct _ _ _ rfl (by decide)
    (NT.all_cons (NT.good_struct _ _ _ rfl (by decide) (NT.all_cons (NT.good_fld _ _ rfl rfl (by decide)) (NT.all_cons (NT.good_fld _ _ rfl rfl (by decide)) NT.all_nil)) (by decide)) NT.all_nil)
    (by decide)
  exact ⟨sep_one g.2.1 g.2.2, g.1⟩

/-- The type of a group: its id is the configured one, and its fields are those which the mappings call for, with record._options. -/
theorem C98_fields (id : Str) (ms : List Mapping) (hp : ∀ m ∈ ms, Proper m) (ha : Spec.GroupType.Agree ms) :
    ∃ d m t, groupType id ms = .ok d ∧ d.top = some m ∧ d.desc = some t ∧ build m = .ok t ∧ m.code = .Struct ∧ m.id = id ∧ Validated m ∧ DistinctNames m ∧
      ∀ p, (fieldAt m.children p).map about = allGiven ms p := by
  obtain ⟨new, e1, g1, g2⟩ := gather_ok ms [recordMember] hp
  have hall : ∀ a ∈ recordMember :: new, Sep [a] ∧ Validated a := by
    intro a h
    rcases List.mem_cons.1 h with rfl | h
    · exact record_good
    · exact (g1 a h).1
  have hempty : Sep ([] : List Member) := Sep.of List.nodup_nil (fun _ h => absurd h List.not_mem_nil)
  have hlook : ∀ p, look [] p = none := by intro p; cases p with
    | nil => rfl
    | cons n q => exact look_none (by simp) q
  obtain ⟨ks, e2, hS, hV⟩ := adopt_total (recordMember :: new) [] hempty (fun _ h => absurd h List.not_mem_nil) hall
    (by intro a _ p x y hx; rw [hlook] at hx; cases hx)
    (by
      intro a ha' b hb p x y hx hy
      rcases List.mem_cons.1 ha' with rfl | ha' <;> rcases List.mem_cons.1 hb with rfl | hb
      · rw [hx] at hy; cases hy; exact ⟨Iff.rfl, Iff.rfl⟩
      · obtain ⟨_, m, hm, r⟩ := g1 b hb
        rw [look_record] at hx
        exact ha.1 m hm p x y hx (r p y hy)
      · obtain ⟨_, m, hm, r⟩ := g1 a ha'
        rw [look_record] at hy
        obtain ⟨k1, k2⟩ := ha.1 m hm p y x hy (r p x hx)
        exact ⟨k1.symm, k2.symm⟩
      · obtain ⟨_, m, hm, r⟩ := g1 a ha'
        obtain ⟨_, m', hm', r'⟩ := g1 b hb
        exact ha.2 m hm m' hm' p x y (r p x hx) (r' p y hy))
  have hroot : Validated { code := .Struct, id := id, children := ks } ∧ DistinctNames { code := .Struct, id := id, children := ks } :=
    ⟨NT.struct_ok [] id ks rfl hV, (distinct_iff _).2 hS⟩
  refine ⟨NT.defOf id ks, { code := .Struct, id := id, children := ks }, flat { code := .Struct, id := id, children := ks }, ?_, rfl, rfl,
    build_total _ hroot.1 hroot.2, rfl, rfl, hroot.1, hroot.2, ?_⟩
  · unfold groupType
    rw [e1, Res.bind_ok, NT.make_good id [] NT.all_nil List.nodup_nil, Res.bind_ok]
    exact NT.plus_ok id [] _ ks e2 hroot.1 hroot.2 _
  · intro p
    have := adopt_fields (recordMember :: new) [] ks hempty (fun a h => (hall a h).1) e2 p
    show look ks p = _
    rw [this, hlook, List.map_cons, List.foldl_cons, look_record, g2]
    rfl

/-- a fold of `later` has something exactly if one of them has -/
theorem fold_some : ∀ (l : List (Option About)) (x : Option About), (l.foldl later x).isSome = true ↔ x.isSome = true ∨ ∃ y ∈ l, y.isSome = true
  | [], x => by simp
  | y :: l, x => by
    rw [List.foldl_cons, fold_some l]
    have : (later x y).isSome = true ↔ x.isSome = true ∨ y.isSome = true := by
      rcases x with _ | ⟨c, i⟩ <;> rcases y with _ | ⟨c', i'⟩ <;> simp [later]
    rw [this]
    simp only [List.mem_cons, exists_eq_or_imp, or_assoc]

/-- each field which a mapping calls for is there, and no field is there for which no mapping calls -/
theorem C98_exactly (id : Str) (ms : List Mapping) (hp : ∀ m ∈ ms, Proper m) (ha : Spec.GroupType.Agree ms) :
    ∃ d m, groupType id ms = .ok d ∧ d.top = some m ∧
      ∀ p, (fieldAt m.children p).isSome = true ↔ (options p).isSome = true ∨ ∃ mp ∈ ms, (given mp p).isSome = true := by
  obtain ⟨d, m, _, h1, h2, _, _, _, _, _, _, h3⟩ := C98_fields id ms hp ha
  refine ⟨d, m, h1, h2, fun p => ?_⟩
  have : (fieldAt m.children p).isSome = (allGiven ms p).isSome := by rw [← h3 p, Option.isSome_map]
  rw [this, allGiven, fold_some]
  refine or_congr Iff.rfl ⟨?_, ?_⟩
  · rintro ⟨y, hy, h⟩
    obtain ⟨q, hq, rfl⟩ := List.mem_map.1 hy
    exact ⟨q, hq, h⟩
  · rintro ⟨q, hq, h⟩
    exact ⟨_, List.mem_map_of_mem hq, h⟩

theorem fold_later (l : List (Option About)) : ∀ x, l.foldl later x = later x (l.foldl later none) := by
  induction l with
  | nil => intro x; rw [List.foldl_nil, List.foldl_nil, later_none]
  | cons y l ih =>
    intro x
    rw [List.foldl_cons, List.foldl_cons, ih, ih (later none y), later_assoc]
    rfl

theorem fold_none (l : List (Option About)) (h : ∀ y ∈ l, y = none) : l.foldl later none = none := by
  induction l with
  | nil => rfl
  | cons y l ih =>
    rw [List.foldl_cons, h y (by simp)]
    exact ih fun z hz => h z (by simp [hz])

/-- a field for which only one mapping calls is as this mapping says -/
theorem C98_only (id : Str) (pre post : List Mapping) (mp : Mapping) (hp : ∀ m ∈ pre ++ mp :: post, Proper m) (ha : Spec.GroupType.Agree (pre ++ mp :: post)) (p : List Str) (x : About)
    (hx : given mp p = some x) (ho : options p = none) (honly : ∀ m ∈ pre ++ post, given m p = none) :
    ∃ d m f, groupType id (pre ++ mp :: post) = .ok d ∧ d.top = some m ∧ fieldAt m.children p = some f ∧ (f.code, f.id) = x := by
  obtain ⟨d, m, _, h1, h2, _, _, _, _, _, _, h3⟩ := C98_fields id _ hp ha
  have := h3 p
  rw [allGiven, List.map_append, List.map_cons, List.foldl_append, List.foldl_cons, hx, ho, fold_none _ (by
    intro y hy
    obtain ⟨q, hq, rfl⟩ := List.mem_map.1 hy
    exact honly q (by simp [hq])), fold_later, fold_none (post.map _) (by
    intro y hy
    obtain ⟨q, hq, rfl⟩ := List.mem_map.1 hy
    exact honly q (by simp [hq])), later_none] at this
  cases hf : fieldAt m.children p with
  | none => rw [hf] at this; cases this
  | some f =>
    rw [hf] at this
    simp only [Option.map_some, later, Option.some.injEq] at this
    exact ⟨d, m, f, h1, h2, hf, this⟩

/-! ### concrete cases -/

def dbl : RecVal.Chan := { type := .double, elems := 1, size := 8, text := false, counted := false }

/-- "" : meta, "a.b" : a plain double, "a.c" : any -/
def exGroup : List Mapping :=
  [{ path := [], what := .metadata }, { path := [{ name := txt "a" }, { name := txt "b" }], what := .plain dbl }, { path := [{ name := txt "a" }, { name := txt "c" }], what := .any }]

example : (∀ m ∈ exGroup, Proper m) ∧ Spec.GroupType.Agree exGroup := by
  have hname : ∀ s ∈ [txt "a", txt "b", txt "c"], Name s := by
    intro s hs
    simp only [List.mem_cons, List.not_mem_nil, or_false] at hs
    rcases hs with rfl | rfl | rfl <;> exact ⟨_, _, rfl, by decide, by decide⟩
  refine ⟨?_, ?_⟩
  · intro m hm
    simp only [exGroup, List.mem_cons, List.not_mem_nil, or_false] at hm
    rcases hm with rfl | rfl | rfl
    · exact ⟨(fun c h => absurd h List.not_mem_nil), (fun _ => Or.inl rfl), (fun _ h => nomatch h), (fun _ h => nomatch h)⟩
    · refine ⟨?_, (fun h => nomatch h), (fun _ h => nomatch h), (fun _ h => nomatch h)⟩
      intro c hc
      simp only [List.mem_cons, List.not_mem_nil, or_false] at hc
      rcases hc with rfl | rfl <;> exact hname _ (by simp)
    · refine ⟨?_, (fun h => nomatch h), (fun _ h => nomatch h), (fun _ h => nomatch h)⟩
      intro c hc
      simp only [List.mem_cons, List.not_mem_nil, or_false] at hc
      rcases hc with rfl | rfl <;> exact hname _ (by simp)
  · have g1 : ∀ p x, given { path := [], what := .metadata } p = some x → p.head? = some (txt "alarm") ∨ p.head? = some (txt "timeStamp") := by
      intro p x h
      change look metaFields p = some x at h
      cases p with
      | nil => rw [look_nil] at h; cases h
      | cons n q =>
        by_cases hn : n ∈ metaFields.map Member.name
        · change n ∈ [txt "alarm", txt "timeStamp"] at hn
          simpa using hn
        · rw [look_none hn] at h; cases h
    have g2 : ∀ (l : Str) (t : Member) p x, placed [{ name := txt "a" }] [{ t with name := l }] p = some x → t.children = [] → (p = [txt "a"] ∧ x = (.Struct, [])) ∨ (p = [txt "a", l] ∧ x = about t) := by
      intro l t p x h ht
      match p with
      | [] => cases h
      | [n] =>
        simp only [placed] at h
        split at h
        · rename_i hn; subst hn; cases h; exact Or.inl ⟨rfl, rfl⟩
        · cases h
      | n :: k :: q =>
        simp only [placed] at h
        split at h
        · rename_i hn
          subst hn
          change look [{ t with name := l }] (k :: q) = some x at h
          by_cases hk : k = l
          · subst hk
            have := look_mem (ms := [{ t with name := k }]) (by simp) (List.mem_singleton.2 rfl) q
            rw [h] at this
            cases q with
            | nil => simp only [if_pos] at this; cases this; exact Or.inr ⟨rfl, rfl⟩
            | cons a q =>
              rw [if_neg (by simp)] at this
              change some x = look t.children _ at this
              rw [ht, look_none (by simp)] at this
              cases this
          · rw [look_none (by simpa using hk)] at h; cases h
        · cases h
    have go : ∀ p x, options p = some x → p.head? = some (txt "record") := by
      intro p x h
      unfold options at h
      split at h
      · rename_i h'; rcases h' with rfl | rfl <;> rfl
      · split at h
        · rename_i h'; rw [h']; rfl
        · split at h
          · rename_i h'; rw [h']; rfl
          · cases h
    have all : ∀ m ∈ exGroup, ∀ p x, given m p = some x → (p.head? = some (txt "alarm") ∨ p.head? = some (txt "timeStamp")) ∧ m.what = .metadata ∨
        (p = [txt "a"] ∧ x = (.Struct, [])) ∨ (p = [txt "a", txt "b"] ∧ x = (.Float64, [])) ∨ (p = [txt "a", txt "c"] ∧ x = (.Any, [])) := by
      intro m hm p x h
      simp only [exGroup, List.mem_cons, List.not_mem_nil, or_false] at hm
      rcases hm with rfl | rfl | rfl
      · exact Or.inl ⟨g1 p x h, rfl⟩
      · rcases g2 (txt "b") { code := .Float64 } p x h rfl with h | h
        · exact Or.inr (Or.inl h)
        · exact Or.inr (Or.inr (Or.inl h))
      · rcases g2 (txt "c") { code := .Any } p x h rfl with h | h
        · exact Or.inr (Or.inl h)
        · exact Or.inr (Or.inr (Or.inr h))
    refine ⟨?_, ?_⟩
    · intro m hm p x y hx hy
      have h1 := go p x hx
      rcases all m hm p y hy with ⟨h2 | h2, _⟩ | ⟨h2, _⟩ | ⟨h2, _⟩ | ⟨h2, _⟩ <;> (rw [h2] at h1; exact absurd h1 (by decide))
    · intro m hm m' hm' p x y hx hy
      have same : ∀ {a b : About}, a = b → SameKind a.1 b.1 := by rintro a b rfl; exact ⟨Iff.rfl, Iff.rfl⟩
      rcases all m hm p x hx with ⟨h1, w1⟩ | ⟨h1, e1⟩ | ⟨h1, e1⟩ | ⟨h1, e1⟩ <;> rcases all m' hm' p y hy with ⟨h2, w2⟩ | ⟨h2, e2⟩ | ⟨h2, e2⟩ | ⟨h2, e2⟩
      case inl.inl =>
        have hm1 : given m p = given m' p := by
          simp only [exGroup, List.mem_cons, List.not_mem_nil, or_false] at hm hm'
          rcases hm with rfl | rfl | rfl <;> rcases hm' with rfl | rfl | rfl <;> first | rfl | (simp at w1; done) | (simp at w2; done)
        rw [hx, hy] at hm1
        cases hm1
        exact same rfl
      all_goals first
        | (rw [h1] at h2; exact absurd h2 (by decide))
        | (subst e1; subst e2; exact same rfl)
        | (rw [h2] at h1; exact absurd h1 (by decide))
        | (rw [h1] at h2; rcases h2 with h2 | h2 <;> exact absurd h2 (by decide))

theorem adopt_distinct : ∀ (as cs : List Member), ((cs ++ as).map Member.name).Nodup → adoptAll cs as = .ok (cs ++ as)
  | [], cs, _ => by rw [adoptAll, List.append_nil]
  | a :: as, cs, h => by
    have hs : (cs ++ [a]) ++ as = cs ++ a :: as := by simp
    rw [adoptAll, adopt_new a cs, Res.bind_ok, adopt_distinct as (cs ++ [a]) (by rw [hs]; exact h), hs]
    intro hmem
    rw [List.map_append, List.nodup_append] at h
    exact h.2.2 _ hmem _ (by simp) rfl

/-! ### what is not so -/

/-- a structure for "a.b" is made at "a.a": the field "a.b" gets no id, and there is a field for which no mapping calls -/
theorem C98_structure : ∃ d m, groupType [] [{ path := [{ name := txt "a" }, { name := txt "b" }], what := .struct (txt "x") }] = .ok d ∧ d.top = some m ∧
    fieldAt m.children [txt "a", txt "b"] = none ∧ (fieldAt m.children [txt "a", txt "a"]).map about = some (.Struct, txt "x") ∧
    given { path := [{ name := txt "a" }, { name := txt "b" }], what := .struct (txt "x") } [txt "a", txt "b"] = some (.Struct, txt "x") := by
  have hg : gather [recordMember] [{ path := [{ name := txt "a" }, { name := txt "b" }], what := .struct (txt "x") }] =
      .ok [recordMember, node { name := txt "a" } [{ code := .Struct, name := txt "a", id := txt "x" }]] := rfl
  have ha := adopt_distinct [recordMember, node { name := txt "a" } [{ code := .Struct, name := txt "a", id := txt "x" }]] [] (by decide)
  have g2 : NT.Good (node { name := txt "a" } [{ code := .Struct, name := txt "a", id := txt "x" }]) :=
    NT.good_struct _ _ _ rfl (by decide) (NT.all_cons (NT.good_struct _ _ _ rfl (by decide) NT.all_nil (by decide)) NT.all_nil) (by decide)
  have gr : NT.Good recordMember := ⟨record_good.2, by decide, (distinctAll_mem record_good.1.2 _ (by simp)).2⟩
  refine ⟨NT.defOf [] [recordMember, node { name := txt "a" } [{ code := .Struct, name := txt "a", id := txt "x" }]], _, ?_, rfl, rfl, rfl, rfl⟩
  unfold groupType
  rw [hg, Res.bind_ok, NT.make_good [] [] NT.all_nil List.nodup_nil, Res.bind_ok]
  exact NT.plus_good [] [] _ _ ha (NT.all_cons gr (NT.all_cons g2 NT.all_nil)) (by decide)

/-- a mapping to an element of an array, "a[0]", makes no array -/
theorem C98_element : ∃ d m, groupType [] [{ path := [{ name := txt "a", index := 0 }], what := .plain dbl }] = .ok d ∧ d.top = some m ∧
    (fieldAt m.children [txt "a"]).map about = some (.Float64, []) := by
  have hg : gather [recordMember] [{ path := [{ name := txt "a", index := 0 }], what := .plain dbl }] = .ok [recordMember, { code := .Float64, name := txt "a" }] := rfl
  have ha := adopt_distinct [recordMember, { code := .Float64, name := txt "a" }] [] (by decide)
  have g2 : NT.Good { code := .Float64, name := txt "a" } := NT.good_fld .Float64 "a" rfl rfl (by decide)
  have gr : NT.Good recordMember := ⟨record_good.2, by decide, (distinctAll_mem record_good.1.2 _ (by simp)).2⟩
  refine ⟨NT.defOf [] [recordMember, { code := .Float64, name := txt "a" }], _, ?_, rfl, rfl⟩
  unfold groupType
  rw [hg, Res.bind_ok, NT.make_good [] [] NT.all_nil List.nodup_nil, Res.bind_ok]
  exact NT.plus_good [] [] _ _ ha (NT.all_cons gr (NT.all_cons g2 NT.all_nil)) (by decide)

/-- mappings which disagree: there is no type -/
theorem C98_disagree : ∃ w, groupType [] [{ path := [{ name := txt "a" }], what := .plain dbl }, { path := [{ name := txt "a" }, { name := txt "b" }], what := .plain dbl }] = .throws w := by
  have hg : gather [recordMember] [{ path := [{ name := txt "a" }], what := .plain dbl }, { path := [{ name := txt "a" }, { name := txt "b" }], what := .plain dbl }] =
      .ok [recordMember, { code := .Float64, name := txt "a" }, node { name := txt "a" } [{ code := .Float64, name := txt "b" }]] := rfl
  refine ⟨"May not change member kind to/from Compound", ?_⟩
  unfold groupType
  rw [hg, Res.bind_ok, NT.make_good [] [] NT.all_nil List.nodup_nil, Res.bind_ok]
  have ha : adoptAll [] [recordMember, { code := .Float64, name := txt "a" }, node { name := txt "a" } [{ code := .Float64, name := txt "b" }]] =
      .throws "May not change member kind to/from Compound" := by
    rw [adoptAll, adopt_new _ _ (by simp), Res.bind_ok, adoptAll, adopt_new _ _ (by decide), Res.bind_ok, adoptAll]
    rw [show [] ++ [recordMember] ++ [({ code := .Float64, name := txt "a" } : Member)] = [recordMember] ++ { code := .Float64, name := txt "a" } :: [] from rfl,
      adopt_old (node { name := txt "a" } [{ code := .Float64, name := txt "b" }]) { code := .Float64, name := txt "a" } [] rfl [recordMember] (by decide), if_pos (by
        intro h
        have : ((TypeCode.Struct).kind = TypeCode.KCompound) := rfl
        have h' : (TypeCode.Float64.kind = TypeCode.KCompound) = (TypeCode.Struct.kind = TypeCode.KCompound) := h
        rw [← h'] at this
        revert this
        decide)]
    rfl
  unfold plus Def.append NT.defOf
  simp only
  rw [if_neg (by intro h; exact h.1 rfl), ha]
  rfl

end Pvxs.Props.GroupType
