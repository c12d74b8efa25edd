import Verif.Spec.TypeDef
import Verif.Spec.ValueOps
import Verif.Props.Value
import Verif.Props.PutBuild
/-
C80: definitions of types.
-/
namespace Pvxs.Props.TypeDef
open Pvxs Spec Spec.TypeDef Pvxs.TypeDef

/-! ### a definition from a value -/

theorem copyTree_setParent (n : Nat) (t rest : List FieldDesc) (h : t ≠ []) :
    copyTree (setParent n t ++ rest) = copyTree (t ++ rest) := by
  cases t with
  | nil => exact absurd rfl h
  | cons d ds =>
    simp only [setParent, List.cons_append]
    rw [copyTree, copyTree]

theorem copyTree_parent (st : Bool) (off : Nat) (m : Member) (rest : List FieldDesc) :
    copyTree ((if st then setParent off (flat m) else flat m) ++ rest) = copyTree (flat m ++ rest) := by
  cases st
  · rfl
  · exact copyTree_setParent _ _ _ (flat_ne_nil m)

mutual
theorem copy_type : ∀ (m : Member) (rest : List FieldDesc), Validated m → copyTree (flat m ++ rest) = .ok { m with name := [] }
  | ⟨code, name, id, ch⟩, rest, h => by
    simp only [Validated] at h
    obtain ⟨h1, hk⟩ := h
    obtain ⟨hv, hid, hch⟩ := validate_ok h1
    simp only at hv hid hch
    have hst : ∀ rest, copyTree (assemble .Struct id ch (flatKids true 1 ch) ++ rest) = .ok ⟨.Struct, [], id, ch⟩ := by
      intro rest
      simp only [assemble, if_true, List.cons_append]
      rw [copyTree]
      simp only [if_true]
      rw [copy_kids ch true 1 1 [] rest (flatKids true 1 ch ++ rest) (by simp) (by simp) hk]
      rfl
    have hun : ∀ rest, copyTree (assemble .Union id ch (flatKids false 1 ch) ++ rest) = .ok ⟨.Union, [], id, ch⟩ := by
      intro rest
      simp only [assemble]
      rw [if_neg (by decide), List.cons_append, copyTree]
      simp only [if_neg (show ¬ (TypeCode.Union = TypeCode.Struct) by decide), if_true]
      rw [copy_kids ch false 0 0 [] [] (flatKids false 1 ch) (by simp [flatKids_off 1 ch 0]) (by simp) hk]
      rfl
    by_cases hs : code.scalarOf = .Struct ∨ code.scalarOf = .Union
    · rcases valid_cases code hv hs with h | h | h | h
      · subst h; simpa [flat] using hst rest
      · subst h; simpa [flat, show (TypeCode.Union == TypeCode.Struct) = false by decide] using hun rest
      · subst h
        have e1 : (TypeCode.StructA).scalarOf = .Struct := by decide
        simp only [flat, e1, true_or, if_true, List.cons_append, beq_self_eq_true]
        rw [copyTree]
        have := hst []
        simp only [List.append_nil] at this
        simp [this]
        decide
      · subst h
        have e1 : (TypeCode.UnionA).scalarOf = .Union := by decide
        simp only [flat, e1, or_true, if_true, List.cons_append]
        rw [copyTree]
        have := hun []
        simp only [List.append_nil] at this
        simp [this, show (TypeCode.Union == TypeCode.Struct) = false by decide]
        decide
    · have h4 : ¬ (code = .StructA ∨ code = .UnionA) := fun h => hs (struct_ne code h)
      have h2 : code ≠ .Struct := by rintro rfl; exact hs (Or.inl (by decide))
      have h3 : code ≠ .Union := by rintro rfl; exact hs (Or.inr (by decide))
      have hi : id = [] := hid.resolve_right hs
      have hc : ch = [] := hch.resolve_right hs
      subst hi hc
      simp only [flat, h4, if_false, assemble, h2, List.cons_append]
      rw [copyTree]
      simp only [h4, h2, h3, if_false]
theorem copy_kids : ∀ (ms : List Member) (st : Bool) (cref off : Nat) (pre rest base : List FieldDesc),
    base = pre ++ flatKids st off ms ++ rest → off = cref + pre.length → ValidatedAll ms →
    copyKids base cref (kidIter off ms) = .ok ms
  | [], st, cref, off, pre, rest, base, hb0, ho, h => by
    simp only [kidIter]
    rw [copyKids]
  | m :: ms, st, cref, off, pre, rest, base, hb0, ho, h => by
    simp only [ValidatedAll] at h
    obtain ⟨hm, hms⟩ := h
    have hlen : (if st then setParent off (flat m) else flat m).length = count m := by
      cases st <;> simp [setParent_length, flat_length]
    have E1 : copyTree ((if st then setParent off (flat m) else flat m) ++ (flatKids st (off + count m) ms ++ rest)) = .ok { m with name := [] } := by
      rw [copyTree_parent]
      exact copy_type m (flatKids st (off + count m) ms ++ rest) hm
    have E2 := copy_kids ms st cref (off + count m) (pre ++ (if st then setParent off (flat m) else flat m)) rest base
      (by rw [hb0]; simp [flatKids]) (by simp only [List.length_append, hlen]; omega) hms
    have hoff : off - cref = pre.length := by omega
    have hdrop : base.drop (off - cref) = (if st then setParent off (flat m) else flat m) ++ (flatKids st (off + count m) ms ++ rest) := by
      rw [hoff, hb0]; simp [flatKids]
    have hhead : ∃ d, ((if st then setParent off (flat m) else flat m) ++ (flatKids st (off + count m) ms ++ rest))[0]? = some d ∧ d.code = m.code := by
      obtain ⟨d, ds, e, hc, _⟩ := flat_head m
      cases st
      · exact ⟨d, by simp [e], hc⟩
      · exact ⟨{ d with parentIndex := off }, by simp [e, setParent], hc⟩
    obtain ⟨d, hd, hdc⟩ := hhead
    have hval : Member.validate { code := m.code, name := m.name } = .ok () := by
      obtain ⟨code, name, id, ch⟩ := m
      simp only [Validated] at hm
      exact validate_name hm.1 (validate_ok hm.1).1
    simp only [kidIter]
    rw [copyKids]
    simp only [show ¬ (off < cref) by omega, if_false, hdrop, hd, hdc, hval, E1, E2, Res.bind_ok]
    cases m; rfl
end

theorem validatedAll_mem {ms : List Member} (h : ValidatedAll ms) : ∀ c ∈ ms, Validated c := by
  induction ms with
  | nil => intro c hc; cases hc
  | cons m ms ih =>
    simp only [ValidatedAll] at h
    intro c hc
    rcases List.mem_cons.mp hc with rfl | hc
    · exact h.1
    · exact ih h.2 c hc

theorem validatedAll_of {ms : List Member} (h : ∀ c ∈ ms, Validated c) : ValidatedAll ms := by
  induction ms with
  | nil => trivial
  | cons m ms ih => exact ⟨h m (by simp), ih fun c hc => h c (by simp [hc])⟩

theorem validated_iff (m : Member) : Validated m ↔ Member.validate m = .ok () ∧ ValidatedAll m.children := by
  cases m; simp only [Validated]

theorem distinct_iff (m : Member) : DistinctNames m ↔ (m.children.map Member.name).Nodup ∧ DistinctNamesAll m.children := by
  cases m; simp only [DistinctNames]

/-- every suffix of the table of a definition starts with the table of a part of the definition -/
theorem part_at (m : Member) : Validated m → DistinctNames m → ∀ i, i < count m →
    ∃ c n rest, (flat m).drop i = setParent n (flat c) ++ rest ∧ Validated c ∧ DistinctNames c := by
  induction m using Member.ind with
  | h m ih =>
    intro hv hd i hi
    cases i with
    | zero => exact ⟨m, 0, [], by rw [List.drop_zero, setParent_zero, List.append_nil], hv, hd⟩
    | succ i =>
      by_cases hs : m.code = .Struct
      · rw [count_struct m hs] at hi
        obtain ⟨o, c, hk, h1, h2⟩ := flatKids_node (off := 1) (show i < countKids m.children by omega)
        obtain ⟨p, r, h3, h4⟩ := hk.flat true
        have hvc : Validated c := validatedAll_mem ((validated_iff m).mp hv).2 c hk.mem
        have hdc : DistinctNames c := (distinctAll_mem ((distinct_iff m).mp hd).2 c hk.mem).2
        have hdrop : (flat m).drop (i+1) = (setParent o (flat c)).drop (i + 1 - o) ++ r := by
          rw [flat_struct m hs, List.drop_succ_cons, h3]
          simp only [if_true]
          have : i = p.length + (i + 1 - o) := by omega
          rw [List.append_assoc]
          have h5 : ∀ k, List.drop (p.length + k) (p ++ (setParent o (flat c) ++ r)) = (setParent o (flat c) ++ r).drop k := by
            intro k; rw [← List.drop_drop, List.drop_left]
          have h6 : List.drop i (p ++ (setParent o (flat c) ++ r)) = (setParent o (flat c) ++ r).drop (i + 1 - o) := by
            rw [← h5, ← this]
          rw [h6, List.drop_append_of_le_length]
          rw [setParent_length, flat_length]; omega
        by_cases hz : i + 1 - o = 0
        · refine ⟨c, o, r, ?_, hvc, hdc⟩
          rw [hdrop, hz, List.drop_zero]
        · obtain ⟨m', n, rest, hn, hm', hm2⟩ := ih c hk.mem hvc hdc (i + 1 - o) (by omega)
          refine ⟨m', n, rest ++ r, ?_, hm', hm2⟩
          rw [hdrop, ← List.append_assoc, ← hn]
          congr 1
          obtain ⟨d, ds, hd, _⟩ := flat_head c
          rw [hd]
          obtain ⟨k, hk'⟩ : ∃ k, i + 1 - o = k + 1 := ⟨i - o, by omega⟩
          rw [hk']
          rfl
      · rw [count_other m hs] at hi; omega

theorem setParent_setParent (a b : Nat) (t : List FieldDesc) : setParent a (setParent b t) = setParent a t := by cases t <;> rfl
theorem asRoot_eq (t : List FieldDesc) : asRoot t = setParent 0 t := by cases t <;> rfl

theorem validate_unnamed {m : Member} (h : Member.validate m = .ok ()) : Member.validate { m with name := [] } = .ok () := by
  unfold Member.validate at h ⊢
  obtain ⟨_, _, h⟩ := Res.bind_eq_ok h
  exact h

/-- The definition made from the field at `i` of a value whose type was defined by a program is the definition of this field: it creates values of exactly
the type of the field, and made from the whole value it is the definition the program gave, save the name of the outermost member. -/
theorem C80_copy (m : Member) (t : List FieldDesc) (hv : Validated m) (hd : DistinctNames m) (ht : build m = .ok t) :
    (∀ i, i < t.length → ∃ c, ofValue (t.drop i) = .ok { top := some c, desc := some (asRoot (subTable t i)) }) ∧
    ∃ c, ofValue t = .ok { top := some c, desc := some t } ∧ SameDef c m := by
  have e := build_total m hv hd
  rw [e] at ht
  injection ht with ht
  subst ht
  have key : ∀ (c : Member) (n : Nat) (rest : List FieldDesc), Validated c → DistinctNames c →
      ofValue (setParent n (flat c) ++ rest) = .ok { top := some { c with name := [] }, desc := some (flat c) } := by
    intro c n rest hvc hdc
    obtain ⟨d, ds, hf, hc, _⟩ := flat_head c
    have hval : Member.validate { code := d.code } = .ok () := by
      rw [hc]
      have := validate_unnamed ((validated_iff c).mp hvc).1
      exact validate_name this (validate_ok this).1
    have hcp : copyTree (setParent n (flat c) ++ rest) = .ok { c with name := [] } := by
      rw [copyTree_setParent _ _ _ (flat_ne_nil c)]
      exact copy_type c rest hvc
    have hb : build { c with name := [] } = .ok (flat c) := by
      have h1 := build_total { c with name := [] } ⟨validate_unnamed ((validated_iff c).mp hvc).1, ((validated_iff c).mp hvc).2⟩
        ((distinct_iff _).mpr ((distinct_iff c).mp hdc))
      rw [h1]
      cases c
      rw [flat_name]
    rw [hf] at hcp ⊢
    simp only [setParent, List.cons_append] at hcp ⊢
    simp only [ofValue, hval, hcp, Res.bind_ok, hb, hf]
  refine ⟨?_, ?_⟩
  · intro i hi
    rw [flat_length] at hi
    obtain ⟨c, n, rest, h1, h2, h3⟩ := part_at m hv hd i hi
    refine ⟨{ c with name := [] }, ?_⟩
    rw [h1, key c n rest h2 h3]
    congr 2
    rw [subTable, h1, nodesOf_flat_append c (full_of_distinct c h3), asRoot_eq, setParent_setParent, setParent_zero]
  · refine ⟨{ m with name := [] }, ?_, rfl, rfl, rfl⟩
    have := key m 0 [] hv hd
    rwa [setParent_zero, List.append_nil] at this

/-! ### additional members -/

/-- the two members joined, with members `ks` -/
def joinedWith (c a : Member) (ks : List Member) : Member :=
  { code := a.code, name := c.name, id := if a.id = [] then c.id else a.id, children := ks }

theorem adopt_new (a : Member) : ∀ cs : List Member, a.name ∉ cs.map Member.name → adopt cs a = .ok (cs ++ [a])
  | [], _ => by rw [adopt]; rfl
  | c :: cs, h => by
    simp only [List.map_cons, List.mem_cons, not_or] at h
    rw [adopt, if_neg (fun e => h.1 e.symm), adopt_new a cs h.2]
    rfl

theorem adopt_old (a c : Member) (post : List Member) (hn : c.name = a.name) : ∀ pre : List Member, a.name ∉ pre.map Member.name →
    adopt (pre ++ c :: post) a =
      if (c.code.kind = TypeCode.KCompound) ≠ (a.code.kind = TypeCode.KCompound) then .throws "May not change member kind to/from Compound"
      else adoptAll c.children a.children >>= fun ks => .ok (pre ++ joinedWith c a ks :: post)
  | [], _ => by
    rw [List.nil_append, adopt, if_pos hn]
    split
    · rfl
    · congr 1
      funext ks
      simp only [joinedWith, List.nil_append]
      by_cases h : a.id = [] <;> simp [h]
  | q :: pre, h => by
    simp only [List.map_cons, List.mem_cons, not_or] at h
    rw [List.cons_append, adopt, if_neg (fun e => h.1 e.symm), adopt_old a c post hn pre h.2]
    split
    · rfl
    · cases adoptAll c.children a.children <;> rfl

theorem mem_split {α : Type} {β : Type} (f : α → β) [DecidableEq β] : ∀ (l : List α) (b : β), b ∈ l.map f →
    ∃ pre c post, l = pre ++ c :: post ∧ f c = b ∧ b ∉ pre.map f
  | [], _, h => absurd h (by simp)
  | x :: l, b, h => by
    by_cases hx : f x = b
    · exact ⟨[], x, l, rfl, hx, by simp⟩
    · have hl : b ∈ l.map f := by
        have h' : b ∈ f x :: l.map f := h
        rcases List.mem_cons.mp h' with h | h
        · exact absurd h.symm hx
        · exact h
      obtain ⟨pre, c, post, rfl, hc, hp⟩ := mem_split f l b hl
      exact ⟨x :: pre, c, post, rfl, hc, by simp only [List.map_cons, List.mem_cons, not_or]; exact ⟨fun e => hx e.symm, hp⟩⟩

theorem nodup_fun {α β : Type} {f : α → β} {l : List α} (h : (l.map f).Nodup) {a b : α} (ha : a ∈ l) (hb : b ∈ l) (e : f a = f b) : a = b := by
  induction l with
  | nil => cases ha
  | cons x l ih =>
    simp only [List.map_cons, List.nodup_cons] at h
    rcases List.mem_cons.mp ha with ha' | ha' <;> rcases List.mem_cons.mp hb with hb' | hb'
    · rw [ha', hb']
    · exact absurd (ha' ▸ e ▸ List.mem_map_of_mem hb') h.1
    · exact absurd (hb' ▸ e.symm ▸ List.mem_map_of_mem ha') h.1
    · exact ih h.2 ha' hb'

/-- siblings have distinct names, at every level -/
def Sep (cs : List Member) : Prop := (cs.map Member.name).Nodup ∧ DistinctNamesAll cs

theorem Sep.kids {cs : List Member} (h : Sep cs) {c : Member} (hc : c ∈ cs) : Sep c.children :=
  (distinct_iff c).mp (distinctAll_mem h.2 c hc).2

theorem Sep.tail {a : Member} {as : List Member} (h : Sep (a :: as)) : a.name ∉ as.map Member.name ∧ Sep as ∧ (0x2e : Wire.Byte) ∉ a.name ∧ DistinctNames a := by
  obtain ⟨h1, h2⟩ := h
  simp only [List.map_cons, List.nodup_cons] at h1
  simp only [DistinctNamesAll] at h2
  exact ⟨h1.1, ⟨h1.2, h2.2.2⟩, h2.1, h2.2.1⟩

theorem Sep.of {cs : List Member} (h1 : (cs.map Member.name).Nodup) (h2 : ∀ c ∈ cs, (0x2e : Wire.Byte) ∉ c.name ∧ DistinctNames c) : Sep cs :=
  ⟨h1, distinctAll_of h2⟩

/-- what adding members to the members of `a`... the induction hypothesis -/
def Joins (a : Member) : Prop := ∀ cs ks, Sep cs → Sep a.children → adoptAll cs a.children = .ok ks → Merged cs a.children ks ∧ Sep ks

theorem joins_list : ∀ (as : List Member), (∀ a ∈ as, Joins a) → ∀ cs ks, Sep cs → Sep as → adoptAll cs as = .ok ks → Merged cs as ks ∧ Sep ks
  | [], _, cs, ks, hs, _, h => by
    rw [adoptAll] at h
    injection h with h
    subst h
    exact ⟨.mk cs [] cs (fun _ _ => []) (by simp) (fun c hc _ => hc) (fun a ha => absurd ha (by simp)) (fun _ _ a ha => absurd ha (by simp)) (fun _ _ a ha => absurd ha (by simp)), hs⟩
  | a :: as, hj, cs, ks, hs, ha, h => by
    rw [adoptAll] at h
    obtain ⟨cs1, h1, h2⟩ := Res.bind_eq_ok h
    obtain ⟨han, has, had, hadn⟩ := ha.tail
    by_cases hn : a.name ∈ cs.map Member.name
    · obtain ⟨pre, c, post, e, hc, hp⟩ := mem_split Member.name cs a.name hn
      subst e
      rw [adopt_old a c post hc pre hp] at h1
      split at h1
      · cases h1
      obtain ⟨sub, h3, h4⟩ := Res.bind_eq_ok h1
      injection h4 with h4
      subst h4
      have hcm : c ∈ pre ++ c :: post := by simp
      obtain ⟨hm, hsub⟩ := hj a (by simp) c.children sub (hs.kids hcm) ((distinct_iff a).mp hadn) h3
      have hnames : (pre ++ joinedWith c a sub :: post).map Member.name = (pre ++ c :: post).map Member.name := by simp [joinedWith]
      have hs1 : Sep (pre ++ joinedWith c a sub :: post) := by
        refine Sep.of (hnames ▸ hs.1) ?_
        intro x hx
        have hold := distinctAll_mem hs.2
        rcases List.mem_append.mp hx with hx | hx
        · exact hold x (by simp [hx])
        · rcases List.mem_cons.mp hx with rfl | hx
          · exact ⟨(hold c hcm).1, (distinct_iff _).mpr hsub⟩
          · exact hold x (by simp [hx])
      obtain ⟨hM, hS⟩ := joins_list as (fun x hx => hj x (by simp [hx])) _ ks hs1 has h2
      refine ⟨?_, hS⟩
      obtain ⟨_, _, _, sub', order, kept, added, deeper, joined⟩ := hM
      have keepc : ∀ x ∈ pre ++ c :: post, x.name ≠ a.name → x ∈ pre ++ joinedWith c a sub :: post := by
        intro x hx hne
        rcases List.mem_append.mp hx with hx | hx
        · simp [hx]
        · rcases List.mem_cons.mp hx with rfl | hx
          · exact absurd hc hne
          · simp [hx]
      refine .mk _ _ _ (fun x b => if b.name = a.name then sub else sub' x b) ?_ ?_ ?_ ?_ ?_
      · rw [order, hnames, List.map_cons, List.filter_cons_of_neg (by rw [decide_eq_true_eq]; exact fun h => h hn)]
      · intro x hx hxn
        simp only [List.map_cons, List.mem_cons, not_or] at hxn
        exact kept x (keepc x hx hxn.1) hxn.2
      · intro b hb hbn
        rcases List.mem_cons.mp hb with rfl | hb
        · exact absurd hn hbn
        · exact added b hb (by rwa [hnames])
      · intro x hx b hb hxb
        rcases List.mem_cons.mp hb with rfl | hb
        · have : x = c := nodup_fun hs.1 hx hcm (hxb.trans hc.symm)
          subst this
          simpa using hm
        · have hne : b.name ≠ a.name := fun e => han (e ▸ List.mem_map_of_mem hb)
          simp only [hne, if_false]
          exact deeper x (keepc x hx (hxb ▸ hne)) b hb hxb
      · intro x hx b hb hxb
        rcases List.mem_cons.mp hb with rfl | hb
        · have : x = c := nodup_fun hs.1 hx hcm (hxb.trans hc.symm)
          subst this
          simp only [if_true]
          exact kept (joinedWith x b sub) (by simp) (by simpa [joinedWith, hc] using han)
        · have hne : b.name ≠ a.name := fun e => han (e ▸ List.mem_map_of_mem hb)
          simp only [hne, if_false]
          exact joined x (keepc x hx (hxb ▸ hne)) b hb hxb
    · rw [adopt_new a cs hn] at h1
      injection h1 with h1
      subst h1
      have hs1 : Sep (cs ++ [a]) := by
        refine Sep.of ?_ ?_
        · rw [List.map_append, List.nodup_append]
          exact ⟨hs.1, by simp, fun x hx y hy e => hn (by simp at hy; rw [← hy, ← e]; exact hx)⟩
        · intro x hx
          rcases List.mem_append.mp hx with hx | hx
          · exact distinctAll_mem hs.2 x hx
          · rw [List.mem_singleton] at hx; subst hx; exact ⟨had, hadn⟩
      obtain ⟨hM, hS⟩ := joins_list as (fun x hx => hj x (by simp [hx])) _ ks hs1 has h2
      refine ⟨?_, hS⟩
      obtain ⟨_, _, _, sub', order, kept, added, deeper, joined⟩ := hM
      refine .mk _ _ _ sub' ?_ ?_ ?_ ?_ ?_
      · simp only [order, List.map_append, List.map_cons, List.map_nil]
        rw [List.filter_cons_of_pos (by rw [decide_eq_true_eq]; exact hn)]
        simp only [List.append_assoc, List.singleton_append, List.cons_append, List.nil_append]
        congr 2
        refine List.filter_congr ?_
        intro n hnm
        have : n ≠ a.name := fun e => han (e ▸ hnm)
        simp [this]
      · intro x hx hxn
        simp only [List.map_cons, List.mem_cons, not_or] at hxn
        exact kept x (by simp [hx]) hxn.2
      · intro b hb hbn
        rcases List.mem_cons.mp hb with rfl | hb
        · exact kept b (by simp) han
        · refine added b hb ?_
          rw [List.map_append, List.mem_append, not_or]
          exact ⟨hbn, fun e => han (by simp at e; rw [← e]; exact List.mem_map_of_mem hb)⟩
      · intro x hx b hb hxb
        rcases List.mem_cons.mp hb with rfl | hb
        · exact absurd (hxb ▸ List.mem_map_of_mem hx) hn
        · exact deeper x (by simp [hx]) b hb hxb
      · intro x hx b hb hxb
        rcases List.mem_cons.mp hb with rfl | hb
        · exact absurd (hxb ▸ List.mem_map_of_mem hx) hn
        · exact joined x (by simp [hx]) b hb hxb

theorem joins_all (a : Member) : Joins a := by
  induction a using Member.ind with
  | h a ih => exact fun cs ks h1 h2 h3 => joins_list a.children ih cs ks h1 h2 h3

theorem merged_of {cs as ks : List Member} (hs : Sep cs) (ha : Sep as) (h : adoptAll cs as = .ok ks) : Merged cs as ks ∧ Sep ks :=
  joins_list as (fun a _ => joins_all a) cs ks hs ha h

theorem kind_compound (c : TypeCode) (h : c.valid = true) : c.kind = TypeCode.KCompound ↔ Compound c := by
  have : ∀ n : Fin 256, (⟨UInt8.ofFin n⟩ : TypeCode).valid = true → ((⟨UInt8.ofFin n⟩ : TypeCode).kind = TypeCode.KCompound ↔
      (((⟨UInt8.ofFin n⟩ : TypeCode) = .Struct ∨ (⟨UInt8.ofFin n⟩ : TypeCode) = .Union ∨
       (⟨UInt8.ofFin n⟩ : TypeCode) = .StructA ∨ (⟨UInt8.ofFin n⟩ : TypeCode) = .UnionA) ∨ (⟨UInt8.ofFin n⟩ : TypeCode) = .Any ∨
       (⟨UInt8.ofFin n⟩ : TypeCode) = .AnyA)) := by decide +kernel
  obtain ⟨b⟩ := c
  have := this b.toFin
  simpa [Compound, Holds] using this (by simpa using h)

/-- every code is one which exists -/
inductive CodesOK : Member → Prop
  | mk (m : Member) (valid : m.code.valid = true) (kids : ∀ c ∈ m.children, CodesOK c) : CodesOK m

theorem codes_of (m : Member) : Validated m → CodesOK m := by
  induction m using Member.ind with
  | h m ih =>
    intro h
    obtain ⟨h1, h2⟩ := (validated_iff m).mp h
    exact .mk m (validate_ok h1).1 fun c hc => ih c hc (validatedAll_mem h2 c hc)

/-- merging is possible exactly if it succeeds -/
def Decides (cs as : List Member) : Prop :=
  (Mergeable cs as → ∃ ks, adoptAll cs as = .ok ks ∧ ∀ k ∈ ks, CodesOK k) ∧ (¬ Mergeable cs as → ∃ w, adoptAll cs as = .throws w)

theorem decides_list : ∀ (as : List Member), (∀ a ∈ as, CodesOK a) →
    (∀ a ∈ as, ∀ cs, Sep cs → (∀ c ∈ cs, CodesOK c) → Sep a.children → Decides cs a.children) →
    ∀ cs, Sep cs → (∀ c ∈ cs, CodesOK c) → Sep as → Decides cs as
  | [], _, _, cs, _, hc, _ => by
    refine ⟨fun _ => ⟨cs, by rw [adoptAll], hc⟩, fun h => absurd (Mergeable.mk cs [] ?_ ?_) h⟩
    · intro _ _ a ha; cases ha
    · intro _ _ a ha; cases ha
  | a :: as, hca, hj, cs, hs, hc, ha => by
    obtain ⟨han, has, had, hadn⟩ := ha.tail
    have hrec := decides_list as (fun x hx => hca x (by simp [hx])) (fun x hx => hj x (by simp [hx]))
    unfold Decides
    by_cases hn : a.name ∈ cs.map Member.name
    · obtain ⟨pre, c, post, e, hcn, hp⟩ := mem_split Member.name cs a.name hn
      subst e
      have hcm : c ∈ pre ++ c :: post := by simp
      have hkc : c.code.valid = true := by cases hc c hcm; assumption
      have hka : a.code.valid = true := by cases hca a (by simp); assumption
      rw [adoptAll, adopt_old a c post hcn pre hp]
      by_cases hk : Compound c.code ↔ Compound a.code
      · have hk' : ¬ ((c.code.kind = TypeCode.KCompound) ≠ (a.code.kind = TypeCode.KCompound)) := by
          rw [Ne, Classical.not_not]
          exact propext (((kind_compound _ hkc).trans hk).trans (kind_compound _ hka).symm)
        rw [if_neg hk']
        have hd := hj a (by simp) c.children (hs.kids hcm) (by cases hc c hcm; assumption) ((distinct_iff a).mp hadn)
        by_cases hM : Mergeable c.children a.children
        · obtain ⟨sub, h1, h2⟩ := hd.1 hM
          have hmer := joins_all a c.children sub (hs.kids hcm) ((distinct_iff a).mp hadn) h1
          simp only [h1, Res.bind_ok]
          have hnames : (pre ++ joinedWith c a sub :: post).map Member.name = (pre ++ c :: post).map Member.name := by simp [joinedWith]
          have hs1 : Sep (pre ++ joinedWith c a sub :: post) := by
            refine Sep.of (hnames ▸ hs.1) ?_
            intro x hx
            have hold := distinctAll_mem hs.2
            rcases List.mem_append.mp hx with hx | hx
            · exact hold x (by simp [hx])
            · rcases List.mem_cons.mp hx with rfl | hx
              · exact ⟨(hold c hcm).1, (distinct_iff _).mpr hmer.2⟩
              · exact hold x (by simp [hx])
          have hc1 : ∀ x ∈ pre ++ joinedWith c a sub :: post, CodesOK x := by
            intro x hx
            rcases List.mem_append.mp hx with hx | hx
            · exact hc x (by simp [hx])
            · rcases List.mem_cons.mp hx with rfl | hx
              · exact .mk _ hka h2
              · exact hc x (by simp [hx])
          obtain ⟨r1, r2⟩ := hrec _ hs1 hc1 has
          have hiff : Mergeable (pre ++ c :: post) (a :: as) ↔ Mergeable (pre ++ joinedWith c a sub :: post) as := by
            constructor
            · intro h
              obtain ⟨_, _, k1, k2⟩ := h
              refine .mk _ _ ?_ ?_
              · intro x hx b hb hxb
                rcases List.mem_append.mp hx with hx | hx
                · exact k1 x (by simp [hx]) b (by simp [hb]) hxb
                · rcases List.mem_cons.mp hx with rfl | hx
                  · exact absurd (List.mem_map.mpr ⟨b, hb, (show c.name = b.name from hxb).symm.trans hcn⟩) han
                  · exact k1 x (by simp [hx]) b (by simp [hb]) hxb
              · intro x hx b hb hxb
                rcases List.mem_append.mp hx with hx | hx
                · exact k2 x (by simp [hx]) b (by simp [hb]) hxb
                · rcases List.mem_cons.mp hx with rfl | hx
                  · exact absurd (List.mem_map.mpr ⟨b, hb, (show c.name = b.name from hxb).symm.trans hcn⟩) han
                  · exact k2 x (by simp [hx]) b (by simp [hb]) hxb
            · intro h
              obtain ⟨_, _, k1, k2⟩ := h
              have keepc : ∀ x ∈ pre ++ c :: post, x.name ≠ a.name → x ∈ pre ++ joinedWith c a sub :: post := by
                intro x hx hne
                rcases List.mem_append.mp hx with hx | hx
                · simp [hx]
                · rcases List.mem_cons.mp hx with rfl | hx
                  · exact absurd hcn hne
                  · simp [hx]
              refine .mk _ _ ?_ ?_
              · intro x hx b hb hxb
                rcases List.mem_cons.mp hb with rfl | hb
                · have : x = c := nodup_fun hs.1 hx hcm (hxb.trans hcn.symm)
                  rw [this]; exact hk
                · have hne : b.name ≠ a.name := fun e => han (e ▸ List.mem_map_of_mem hb)
                  exact k1 x (keepc x hx (hxb ▸ hne)) b hb hxb
              · intro x hx b hb hxb
                rcases List.mem_cons.mp hb with rfl | hb
                · have : x = c := nodup_fun hs.1 hx hcm (hxb.trans hcn.symm)
                  rw [this]; exact hM
                · have hne : b.name ≠ a.name := fun e => han (e ▸ List.mem_map_of_mem hb)
                  exact k2 x (keepc x hx (hxb ▸ hne)) b hb hxb
          exact ⟨fun h => r1 (hiff.mp h), fun h => r2 fun h' => h (hiff.mpr h')⟩
        · obtain ⟨w, hw⟩ := hd.2 hM
          simp only [hw, Res.bind_throws]
          refine ⟨fun h => ?_, fun _ => ⟨w, rfl⟩⟩
          obtain ⟨_, _, k1, k2⟩ := h
          exact absurd (k2 c hcm a (by simp) hcn) hM
      · have hk' : (c.code.kind = TypeCode.KCompound) ≠ (a.code.kind = TypeCode.KCompound) := fun e =>
          hk (((kind_compound _ hkc).symm.trans (iff_of_eq e)).trans (kind_compound _ hka))
        rw [if_pos hk']
        refine ⟨fun h => ?_, fun _ => ⟨_, rfl⟩⟩
        obtain ⟨_, _, k1, k2⟩ := h
        exact absurd (k1 c hcm a (by simp) hcn) hk
    · rw [adoptAll, adopt_new a cs hn, Res.bind_ok]
      have hs1 : Sep (cs ++ [a]) := by
        refine Sep.of ?_ ?_
        · rw [List.map_append, List.nodup_append]
          exact ⟨hs.1, by simp, fun x hx y hy e => hn (by simp at hy; rw [← hy, ← e]; exact hx)⟩
        · intro x hx
          rcases List.mem_append.mp hx with hx | hx
          · exact distinctAll_mem hs.2 x hx
          · rw [List.mem_singleton] at hx; subst hx; exact ⟨had, hadn⟩
      have hc1 : ∀ x ∈ cs ++ [a], CodesOK x := by
        intro x hx
        rcases List.mem_append.mp hx with hx | hx
        · exact hc x hx
        · rw [List.mem_singleton] at hx; subst hx; exact hca x (by simp)
      obtain ⟨r1, r2⟩ := hrec _ hs1 hc1 has
      have hiff : Mergeable cs (a :: as) ↔ Mergeable (cs ++ [a]) as := by
        constructor
        · intro h
          obtain ⟨_, _, k1, k2⟩ := h
          have : ∀ x ∈ cs ++ [a], ∀ b ∈ as, x.name = b.name → x ∈ cs := by
            intro x hx b hb hxb
            rcases List.mem_append.mp hx with hx | hx
            · exact hx
            · rw [List.mem_singleton] at hx; subst hx
              exact absurd (hxb ▸ List.mem_map_of_mem hb) han
          exact .mk _ _ (fun x hx b hb hxb => k1 x (this x hx b hb hxb) b (by simp [hb]) hxb) (fun x hx b hb hxb => k2 x (this x hx b hb hxb) b (by simp [hb]) hxb)
        · intro h
          obtain ⟨_, _, k1, k2⟩ := h
          have : ∀ x ∈ cs, ∀ b ∈ a :: as, x.name = b.name → b ∈ as := by
            intro x hx b hb hxb
            rcases List.mem_cons.mp hb with rfl | hb
            · exact absurd (hxb ▸ List.mem_map_of_mem hx) hn
            · exact hb
          exact .mk _ _ (fun x hx b hb hxb => k1 x (by simp [hx]) b (this x hx b hb hxb) hxb) (fun x hx b hb hxb => k2 x (by simp [hx]) b (this x hx b hb hxb) hxb)
      exact ⟨fun h => r1 (hiff.mp h), fun h => r2 fun h' => h (hiff.mpr h')⟩

theorem decides_kids (a : Member) : CodesOK a → ∀ cs, Sep cs → (∀ c ∈ cs, CodesOK c) → Sep a.children → Decides cs a.children := by
  induction a using Member.ind with
  | h a ih =>
    intro hca cs h1 h2 h3
    have hk : ∀ c ∈ a.children, CodesOK c := by cases hca; assumption
    exact decides_list a.children hk (fun c hc cs h1 h2 h3 => ih c hc (hk c hc) cs h1 h2 h3) cs h1 h2 h3

theorem decides_all {cs as : List Member} (hc : ValidatedAll cs) (ha : ValidatedAll as) (hs : Sep cs) (hsa : Sep as) : Decides cs as :=
  decides_list as (fun a h => codes_of a (validatedAll_mem ha a h)) (fun a h => decides_kids a (codes_of a (validatedAll_mem ha a h))) cs hs
    (fun c h => codes_of c (validatedAll_mem hc c h)) hsa

/-- every merged member is an old one, an added one, or two joined -/
theorem merged_mem {cs as ks : List Member} (h : Merged cs as ks) (hs : Sep ks) (x : Member) (hx : x ∈ ks) :
    x ∈ cs ∨ x ∈ as ∨ ∃ c ∈ cs, ∃ a ∈ as, c.name = a.name ∧ x = joinedWith c a x.children := by
  obtain ⟨_, _, _, sub, order, kept, added, deeper, joined⟩ := h
  have hn : x.name ∈ cs.map Member.name ++ (as.map Member.name).filter (fun n => n ∉ cs.map Member.name) := order ▸ List.mem_map_of_mem hx
  rcases List.mem_append.mp hn with hn | hn
  · obtain ⟨c, hc, e⟩ := List.mem_map.mp hn
    by_cases ha : c.name ∈ as.map Member.name
    · obtain ⟨a, ha, ea⟩ := List.mem_map.mp ha
      have := nodup_fun hs.1 hx (joined c hc a ha ea.symm) e.symm
      exact Or.inr (Or.inr ⟨c, hc, a, ha, ea.symm, by rw [this]; rfl⟩)
    · have := nodup_fun hs.1 hx (kept c hc ha) e.symm
      exact Or.inl (this ▸ hc)
  · obtain ⟨h1, h2⟩ := List.mem_filter.mp hn
    obtain ⟨a, ha, e⟩ := List.mem_map.mp h1
    have h3 : a.name ∉ cs.map Member.name := by rw [e]; simpa only [decide_eq_true_eq] using h2
    have := nodup_fun hs.1 hx (added a ha h3) e.symm
    exact Or.inr (Or.inl (this ▸ ha))

theorem holds_scalar {c : TypeCode} (h : Holds c) : c.scalarOf = .Struct ∨ c.scalarOf = .Union := by
  rcases h with rfl | rfl | rfl | rfl <;> decide

theorem holds_of {c : TypeCode} (hv : c.valid = true) (h : c.scalarOf = .Struct ∨ c.scalarOf = .Union) : Holds c := valid_cases c hv h

theorem node_ok {parent : Option TypeCode} {id : Str} {code : TypeCode} (hv : code.valid = true) (hi : id = [] ∨ Holds code)
    (hp : ∀ p, parent = some p → Holds p) : nodeValidate parent id code = .ok () := by
  unfold nodeValidate
  have h1 : ¬ (id ≠ [] ∧ code.scalarOf ≠ .Struct ∧ code.scalarOf ≠ .Union) := by
    rintro ⟨h1, h2, h3⟩
    rcases hi with hi | hi
    · exact h1 hi
    · rcases holds_scalar hi with h | h
      · exact h2 h
      · exact h3 h
  rw [if_neg h1, if_neg (by simp [hv])]
  cases parent with
  | none => rfl
  | some p =>
    have h2 : ¬ (p.scalarOf ≠ .Struct ∧ p.scalarOf ≠ .Union) := by
      rintro ⟨h2, h3⟩
      rcases holds_scalar (hp p rfl) with h | h
      · exact h2 h
      · exact h3 h
    simp only [if_neg h2]

theorem forM_of {l : List α} {f : α → Res Unit} (h : ∀ a ∈ l, f a = .ok ()) : l.forM f = .ok () := by
  induction l with
  | nil => rfl
  | cons x l ih =>
    simp only [List.forM, h x (by simp)]
    exact ih fun a ha => h a (by simp [ha])

theorem validate_of {m : Member} (hn : ifNamed m.name (nameValidate m.name) = .ok ()) (hv : m.code.valid = true) (hi : m.id = [] ∨ Holds m.code)
    (hc : m.children = [] ∨ Holds m.code) (hk : ∀ c ∈ m.children, Validated c) : Validated m := by
  refine (validated_iff m).mpr ⟨?_, validatedAll_of hk⟩
  unfold Member.validate
  rw [hn, node_ok hv hi (by intro p h; cases h)]
  refine forM_of ?_
  intro c h
  obtain ⟨h1, h2, _⟩ := validate_ok ((validated_iff c).mp (hk c h)).1
  refine node_ok h1 (h2.imp id fun h => holds_of h1 h) ?_
  intro p hp
  injection hp with hp
  subst hp
  rcases hc with hc | hc
  · rw [hc] at h; cases h
  · exact hc

theorem validated_parts {m : Member} (h : Validated m) : ifNamed m.name (nameValidate m.name) = .ok () ∧ m.code.valid = true ∧
    (m.id = [] ∨ Holds m.code) ∧ (m.children = [] ∨ Holds m.code) ∧ ∀ c ∈ m.children, Validated c := by
  obtain ⟨h1, h2⟩ := (validated_iff m).mp h
  obtain ⟨h3, h4, h5⟩ := validate_ok h1
  refine ⟨?_, h3, h4.imp id (holds_of h3), h5.imp id (holds_of h3), validatedAll_mem h2⟩
  unfold Member.validate at h1
  obtain ⟨_, h1, _⟩ := Res.bind_eq_ok h1
  exact h1

theorem merged_nil {cs as ks : List Member} (h : Merged cs as ks) (hk : ks ≠ []) : cs ≠ [] ∨ as ≠ [] := by
  obtain ⟨_, _, _, sub, order, _⟩ := h
  cases cs with
  | cons c cs => exact Or.inl (by simp)
  | nil =>
    cases as with
    | cons a as => exact Or.inr (by simp)
    | nil => exact absurd (by simpa using order) hk

/-- the merged members are well formed -/
theorem merged_validated {cs as ks : List Member} (h : Merged cs as ks) : Sep ks → KeepsMembers cs as → (∀ c ∈ cs, Validated c) → (∀ a ∈ as, Validated a) →
    ∀ x ∈ ks, Validated x := by
  induction h with
  | mk cs as ks sub order kept added deeper joined ih =>
    intro hs hK hc ha x hx
    have hM : Merged cs as ks := .mk cs as ks sub order kept added deeper joined
    rcases merged_mem hM hs x hx with h | h | ⟨c, hcm, a, ham, e, hx'⟩
    · exact hc x h
    · exact ha x h
    · have hx2 : x = joinedWith c a (sub c a) := nodup_fun hs.1 hx (joined c hcm a ham e) (by rw [hx']; rfl)
      obtain ⟨_, _, k1, k2, k3⟩ := hK
      obtain ⟨c1, c2, c3, c4, c5⟩ := validated_parts (hc c hcm)
      obtain ⟨a1, a2, a3, a4, a5⟩ := validated_parts (ha a ham)
      have hsub : Sep (sub c a) := by
        have := hs.kids hx
        rwa [hx2] at this
      rw [hx2]
      refine validate_of c1 a2 ?_ ?_ ?_
      · show (if a.id = [] then c.id else a.id) = [] ∨ Holds a.code
        by_cases hi : a.id = []
        · rw [if_pos hi]
          by_cases hci : c.id = []
          · exact Or.inl hci
          · exact Or.inr (k2 c hcm a ham e hci)
        · rw [if_neg hi]
          exact a3
      · show sub c a = [] ∨ Holds a.code
        by_cases hk : sub c a = []
        · exact Or.inl hk
        · rcases merged_nil (deeper c hcm a ham e) hk with h | h
          · exact Or.inr (k1 c hcm a ham e h)
          · exact Or.inr (a4.resolve_left h)
      · exact ih c hcm a ham e hsub (k3 c hcm a ham e) c5 a5

/-- Adding members to a definition.  If the members can be merged (and none which has members becomes an Any), the definition afterwards is the old one with
the members merged into it as described by `Merged`, and values of it can be created; if they can not, the call fails and the type created by the definition
is the old one. -/
theorem C80_append_partial (m : Member) (t : List FieldDesc) (shared : Bool) (as : List Member) (hv : Validated m) (hd : DistinctNames m)
    (ht : build m = .ok t) (hm : Holds m.code) (hva : ∀ a ∈ as, Validated a) (hna : (as.map Member.name).Nodup)
    (hda : ∀ a ∈ as, (0x2e : Wire.Byte) ∉ a.name ∧ DistinctNames a) :
    (Mergeable m.children as → KeepsMembers m.children as → ∃ ks t', Merged m.children as ks ∧
      Validated { m with children := ks } ∧ DistinctNames { m with children := ks } ∧ build { m with children := ks } = .ok t' ∧
      Def.append { top := some m, desc := some t } shared as = (.ok (), { top := some { m with children := ks }, desc := some t' })) ∧
    (¬ Mergeable m.children as → ∃ w d, Def.append { top := some m, desc := some t } shared as = (.throws w, d) ∧ d.desc = some t ∧
      (shared = true → d.top = some m)) := by
  have hsm : Sep m.children := (distinct_iff m).mp hd
  have hsa : Sep as := Sep.of hna hda
  obtain ⟨m1, m2, m3, m4, m5⟩ := validated_parts hv
  have hdec := decides_all (validatedAll_of m5) (validatedAll_of hva) hsm hsa
  have hcode : ¬ (m.code.scalarOf ≠ .Struct ∧ m.code.scalarOf ≠ .Union) := by
    rintro ⟨h2, h3⟩
    rcases holds_scalar hm with h | h
    · exact h2 h
    · exact h3 h
  refine ⟨?_, ?_⟩
  · intro hM hK
    obtain ⟨ks, hk, _⟩ := hdec.1 hM
    obtain ⟨h1, h2⟩ := merged_of hsm hsa hk
    have hv' : Validated { m with children := ks } := validate_of m1 m2 m3 (Or.inr hm) (merged_validated h1 h2 hK m5 hva)
    have hd' : DistinctNames { m with children := ks } := (distinct_iff _).mpr h2
    have hb := build_total _ hv' hd'
    refine ⟨ks, _, h1, hv', hd', hb, ?_⟩
    simp only [Def.append, if_neg hcode, hk, Res.bind_ok, hb]
  · intro hM
    obtain ⟨w, hw⟩ := hdec.2 hM
    refine ⟨w, if shared then { top := some m, desc := some t } else { top := none, desc := some t }, ?_, ?_, ?_⟩
    · simp only [Def.append, if_neg hcode, hw, Res.bind_throws]
    · cases shared <;> rfl
    · rintro rfl; rfl

/-! ### concrete cases -/

/-- struct { int32_t a; struct { string s; } b; } -/
def exM : Member := { code := .Struct, children := [{ code := .Int32, name := [0x61] }, { code := .Struct, name := [0x62], children := [{ code := .String, name := [0x73] }] }] }
/-- int64_t a; struct { int32_t n; } b; bool c; -/
def exAs : List Member := [{ code := .Int64, name := [0x61] }, { code := .Struct, name := [0x62], id := [0x69], children := [{ code := .Int32, name := [0x6e] }] }, { code := .Bool, name := [0x63] }]
/-- struct { int64_t a; struct "i" { string s; int32_t n; } b; bool c; } -/
def exSum : List Member := [{ code := .Int64, name := [0x61] },
  { code := .Struct, name := [0x62], id := [0x69], children := [{ code := .String, name := [0x73] }, { code := .Int32, name := [0x6e] }] }, { code := .Bool, name := [0x63] }]

theorem exM_valid : Validated exM := by simp [exM, Validated, ValidatedAll]; decide
theorem exM_distinct : DistinctNames exM := by simp [exM, DistinctNames, DistinctNamesAll]
theorem exAs_valid : ∀ a ∈ exAs, Validated a := by
  simp only [exAs, List.mem_cons, List.not_mem_nil, or_false]
  rintro a (rfl | rfl | rfl) <;> simp [Validated, ValidatedAll] <;> decide

theorem mergeable_nil (as : List Member) : Mergeable [] as := .mk _ _ (fun c h => absurd h List.not_mem_nil) (fun c h => absurd h List.not_mem_nil)
theorem mergeable_nil' (cs : List Member) : Mergeable cs [] := .mk _ _ (fun c _ a h => absurd h List.not_mem_nil) (fun c _ a h => absurd h List.not_mem_nil)

-- C80_copy is about this type
example : ∃ t, build exM = .ok t ∧ t.length = 4 ∧ ∃ c, ofValue (t.drop 2) = .ok { top := some c, desc := some (asRoot (subTable t 2)) } := by
  have hb := build_total exM exM_valid exM_distinct
  exact ⟨_, hb, rfl, (C80_copy exM _ exM_valid exM_distinct hb).1 2 (by decide)⟩

theorem exM_mergeable : Mergeable exM.children exAs := by
  refine .mk _ _ ?_ ?_ <;> simp only [exM, exAs, List.mem_cons, List.not_mem_nil, or_false]
  · rintro c (rfl | rfl) a (rfl | rfl | rfl) h <;> first | (simp [Compound, Holds]; done) | (exact absurd h (by decide))
  · rintro c (rfl | rfl) a (rfl | rfl | rfl) h <;> first | exact mergeable_nil _ | (exact absurd h (by decide)) | skip
    refine .mk _ _ ?_ ?_ <;> simp only [List.mem_cons, List.not_mem_nil, or_false] <;> (rintro c rfl a rfl h; exact absurd h (by decide))

theorem exM_keeps : KeepsMembers exM.children exAs := by
  have nil : ∀ as, KeepsMembers [] as := fun as =>
    .mk _ _ (fun c h => absurd h List.not_mem_nil) (fun c h => absurd h List.not_mem_nil) (fun c h => absurd h List.not_mem_nil)
  refine .mk _ _ ?_ ?_ ?_ <;> simp only [exM, exAs, List.mem_cons, List.not_mem_nil, or_false]
  · rintro c (rfl | rfl) a (rfl | rfl | rfl) h <;> simp [Holds] <;> (exact absurd h (by decide))
  · rintro c (rfl | rfl) a (rfl | rfl | rfl) h <;> simp [Holds]
  · rintro c (rfl | rfl) a (rfl | rfl | rfl) h <;> first | exact nil _ | (exact absurd h (by decide)) | skip
    refine .mk _ _ ?_ ?_ ?_ <;> simp only [List.mem_cons, List.not_mem_nil, or_false] <;> (rintro c rfl a rfl h; exact absurd h (by decide))

-- the hypotheses of C80_append_partial are met
example (t : List FieldDesc) (ht : build exM = .ok t) : ∃ ks t', Merged exM.children exAs ks ∧
    Def.append { top := some exM, desc := some t } false exAs = (.ok (), { top := some { exM with children := ks }, desc := some t' }) := by
  obtain ⟨ks, t', h1, _, _, _, h⟩ := (C80_append_partial exM t false exAs exM_valid exM_distinct ht (Or.inl rfl) exAs_valid (by decide)
    (by simp [exAs, DistinctNames, DistinctNamesAll])).1 exM_mergeable exM_keeps
  exact ⟨ks, t', h1, h⟩

-- and this is the result
example : adoptAll exM.children exAs = .ok exSum := by simp (decide := true) [exM, exAs, exSum, adoptAll, adopt]

/-! ### what the code does not do -/

/-- A value received from a peer whose type has a member "a-b" has no definition: the constructor throws. -/
theorem C80_odd_name : ∃ (bytes : List Wire.Byte) (t : List FieldDesc) (i : Wire.In) (w : String),
    getTypeTop [] { be := true, rest := bytes } = ((t, []), i) ∧ i.err = false ∧ t ≠ [] ∧ (newValue t).isOk = true ∧ ofValue t = .throws w := by
  refine ⟨[0x80, 0x00, 0x01, 0x03, 0x61, 0x2d, 0x62, 0x22],
    [{ code := .Struct, mlookup := [([0x61, 0x2d, 0x62], 1)], miter := [([0x61, 0x2d, 0x62], 1)] }, { code := .Int32, parentIndex := 1 }], _,
    "invalid field name", rfl, rfl, ?_, rfl, ?_⟩
  · intro h; cases h
  · simp only [ofValue]
    rw [copyTree]
    simp only [if_true]
    rw [copyKids]
    rfl

/-- Two members of the same name are accepted by the constructor of the member, but building the type fails an assert: the process is aborted. -/
theorem C80_duplicate : Member.validate { code := .Struct, children := [{ code := .Int32, name := [0x78] }, { code := .Int32, name := [0x78] }] } = .ok () ∧
    make .Struct [] [{ code := .Int32, name := [0x78] }, { code := .Int32, name := [0x78] }] = .ub := ⟨rfl, rfl⟩

/-- as() accepts any name: one with a dot in it can be the path of another field, and then the process is aborted too. -/
theorem C80_as : ∃ (d : Def) (x : Member), make .Int32 [] [] = .ok d ∧ d.as [0x61, 0x2e, 0x62] = .ok x ∧
    nameValidate [0x61, 0x2e, 0x62] ≠ .ok () ∧
    make .Struct [] [{ code := .Struct, name := [0x61], children := [{ code := .Int32, name := [0x62] }] }, x] = .ub :=
  ⟨_, _, rfl, rfl, by decide, rfl⟩

/-- as(code, name): possible exactly if both codes, the old and the new, are Compound or neither is.  The member has the new code and name, and the id and members of
the definition.  If the name is a valid one, and the new code may have the id and the members, the member is well formed. -/
theorem C80_as_code (m : Member) (t : List FieldDesc) (hv : Validated m) (code : TypeCode) (hc : code.valid = true) (name : Str) :
    (Compound code ↔ Compound m.code) ∧ (∃ x, Def.asCode { top := some m, desc := some t } code name = .ok x ∧ x.code = code ∧ x.name = name ∧ x.id = m.id ∧
        x.children = m.children ∧ (ifNamed name (nameValidate name) = .ok () → (m.id = [] ∧ m.children = [] ∨ Holds code) → Validated x)) ∨
    ¬ (Compound code ↔ Compound m.code) ∧ ∃ w, Def.asCode { top := some m, desc := some t } code name = .throws w := by
  obtain ⟨_, p2, _, _, p5⟩ := validated_parts hv
  have e : Def.asCode { top := some m, desc := some t } code name =
      if (code.kind = TypeCode.KCompound) ≠ (m.code.kind = TypeCode.KCompound) then .throws "as() may change between Compound and non-Compound"
      else .ok { m with name := name, code := code } := rfl
  by_cases h : (Compound code ↔ Compound m.code)
  · refine Or.inl ⟨h, { m with name := name, code := code }, ?_, rfl, rfl, rfl, rfl, fun hn hh => ?_⟩
    · rw [e, if_neg]
      simp only [ne_eq, eq_iff_iff]
      rw [kind_compound code hc, kind_compound m.code p2]; exact fun hx => hx h
    · exact validate_of hn hc (hh.imp (·.1) id) (hh.imp (·.2) id) p5
  · refine Or.inr ⟨h, "as() may change between Compound and non-Compound", ?_⟩
    rw [e, if_pos]
    simp only [ne_eq, eq_iff_iff]
    rw [kind_compound code hc, kind_compound m.code p2]; exact h

/-- as(code, name) may turn a structure with members into an Any, which keeps them: not a member which could have been constructed. -/
theorem C80_as_any : ∃ x w, Def.asCode { top := some exM, desc := some (flat exM) } .Any [0x61] = .ok x ∧ x.code = .Any ∧ x.children.length = 2 ∧
    Member.validate x = .throws w := ⟨_, _, rfl, rfl, rfl, rfl⟩

example : ∃ x, Def.asCode { top := some exM, desc := some (flat exM) } .StructA [0x61] = .ok x ∧ Validated x ∧ x.children.length = 2 := by
  rcases C80_as_code exM (flat exM) exM_valid .StructA (by decide) [0x61] with ⟨_, x, h1, _, _, _, h5, h6⟩ | ⟨h, _⟩
  · exact ⟨x, h1, h6 (by decide) (Or.inr (Or.inr (Or.inr (Or.inl rfl)))), by rw [h5]; rfl⟩
  · exact absurd (by simp [Compound, Holds, exM]) h

/-- struct { int32_t a; any b, with a member; } -/
def anyM1 : Member := { code := .Struct, children := [{ code := .Int32, name := [0x61] }, { code := .Any, name := [0x62], children := [{ code := .String, name := [0x73] }] }] }
/-- struct { int32_t a; any b; } -/
def anyM2 : Member := { code := .Struct, children := [{ code := .Int32, name := [0x61] }, { code := .Any, name := [0x62] }] }

/-- A structure which has members may be changed to an Any: the definition keeps the members, the type is not the type of the values it creates as
seen by `TypeDef(value)`. -/
theorem C80_any : ∃ (t t' t'' : List FieldDesc) (m' m'' : Member), build exM = .ok t ∧
    Def.append { top := some exM, desc := some t } false [{ code := .Any, name := [0x62] }] = (.ok (), { top := some m', desc := some t' }) ∧
    ofValue t' = .ok { top := some m'', desc := some t'' } ∧ m'.children.map (fun c => (c.code, c.children.length)) = [(.Int32, 0), (.Any, 1)] ∧
    m''.children.map (fun c => (c.code, c.children.length)) = [(.Int32, 0), (.Any, 0)] := by
  have h1 : adoptAll exM.children [{ code := .Any, name := [0x62] }] =
      .ok [{ code := .Int32, name := [0x61] }, { code := .Any, name := [0x62], children := [{ code := .String, name := [0x73] }] }] := by
    simp (decide := true) [exM, adoptAll, adopt]
  have e : copyTree (flat anyM1) = .ok anyM2 := by
    show copyTree [_, _, _] = _
    rw [copyTree]
    simp only [if_true]
    simp (decide := true) [copyTree, copyKids, anyM1, kidIter, count]
    rfl
  refine ⟨flat exM, flat anyM1, flat anyM2, anyM1, anyM2, rfl, ?_, ?_, rfl, rfl⟩
  · simp only [Def.append]
    rw [if_neg (by decide), h1]
    rfl
  · show (Member.validate { code := .Struct } >>= fun _ => copyTree (flat anyM1) >>= fun m => build m >>= fun t' => (.ok ({ top := some m, desc := some t' } : Def) : Res Def)) = _
    rw [e]
    rfl

/-- After members were refused, the definition can not be extended any more, although it still creates values. -/
theorem C80_failed : ∃ (t : List FieldDesc) (d : Def) (w w' : String), build exM = .ok t ∧
    Def.append { top := some exM, desc := some t } false [{ code := .Int32, name := [0x62] }] = (.throws w, d) ∧
    (d.append false [{ code := .Bool, name := [0x63] }]).1 = .throws w' ∧ d.create = newValue t ∧ (newValue t).isOk = true := by
  have h1 : adoptAll exM.children [{ code := .Int32, name := [0x62] }] = .throws "May not change member kind to/from Compound" := by
    simp (decide := true) [exM, adoptAll, adopt]
  refine ⟨flat exM, { top := none, desc := some (flat exM) }, "May not change member kind to/from Compound", "May only append to Struct, Union, StructA, or UnionA", rfl, ?_, rfl, rfl, rfl⟩
  simp only [Def.append]
  rw [if_neg (by decide), h1]
  rfl

end Pvxs.Props.TypeDef
