import Verif.Model.TypeText
import Verif.Spec.TypeText
import Verif.Props.TypeDef
/-
C108: a type which is printed can be told from the text.
-/
namespace Pvxs.Props.TyTxt

open Pvxs Pvxs.NT Pvxs.TypeText
open Pvxs.Spec (Validated ValidatedAll DistinctNames DistinctNamesAll)
open Pvxs.Spec.TypeText (Legible LegibleAll Same SameAll NotArray NoArrayId NoArrayIdAll)

/-! ### reading the parts of a line -/

theorem cut {P : UInt8 → Prop} {a b : Str} {c d : UInt8} {x y : Str} (ha : ∀ z ∈ a, ¬P z) (hb : ∀ z ∈ b, ¬P z) (hc : P c) (hd : P d)
    (h : a ++ c :: x = b ++ d :: y) : a = b ∧ c = d ∧ x = y := by
  induction a generalizing b with
  | nil =>
    cases b with
    | nil => simp only [List.nil_append, List.cons.injEq] at h; exact ⟨rfl, h⟩
    | cons z b =>
      simp only [List.nil_append, List.cons_append, List.cons.injEq] at h
      exact absurd (h.1 ▸ hc) (hb z List.mem_cons_self)
  | cons w a ih =>
    cases b with
    | nil =>
      simp only [List.nil_append, List.cons_append, List.cons.injEq] at h
      exact absurd (h.1 ▸ hd) (ha w List.mem_cons_self)
    | cons z b =>
      simp only [List.cons_append, List.cons.injEq] at h
      obtain ⟨h1, h2⟩ := ih (fun z hz => ha z (List.mem_cons_of_mem _ hz)) (fun z hz => hb z (List.mem_cons_of_mem _ hz)) h.2
      exact ⟨by rw [h.1, h1], h2⟩

/-- a blank or the end of the line -/
def Gap (c : UInt8) : Prop := c = 0x20 ∨ c = 0x0a

/-- a name has neither of these, nor quotation marks and braces -/
def NameOk (n : Str) : Prop := ∀ c ∈ n, ¬Gap c ∧ c ≠ 0x22 ∧ c ≠ 0x7b

theorem name_cut {a b x y : Str} (ha : NameOk a) (hb : NameOk b) (h : nameText a ++ 0x0a :: x = nameText b ++ 0x0a :: y) : a = b ∧ x = y := by
  unfold nameText at h
  by_cases h1 : a = [] <;> by_cases h2 : b = []
  · simp [h1, h2] at h; exact ⟨by rw [h1, h2], h⟩
  · simp [h1, h2] at h
  · simp [h1, h2] at h
  · simp only [h1, h2, if_false, List.cons_append, List.cons.injEq, true_and] at h
    obtain ⟨e1, _, e2⟩ := cut (P := Gap) (fun z hz => (ha z hz).1) (fun z hz => (hb z hz).1) (.inr rfl) (.inr rfl) h
    exact ⟨e1, e2⟩

/-- the text does not go on with a quoted text, nor with an opening brace -/
def Plain (t : Str) : Prop := (∀ r, t ≠ 0x20 :: 0x22 :: r) ∧ (∀ r, t ≠ 0x20 :: 0x7b :: r)

theorem plain_name {a x : Str} (ha : NameOk a) : Plain (nameText a ++ 0x0a :: x) := by
  unfold nameText
  cases a with
  | nil => constructor <;> intro r <;> simp
  | cons c a =>
    obtain ⟨_, h2, h3⟩ := ha c List.mem_cons_self
    constructor <;> intro r h <;> simp at h
    · exact h2 h.1
    · exact h3 h.1

theorem id_cut {a b t t' : Str} (ha : (0x22 : UInt8) ∉ a) (hb : (0x22 : UInt8) ∉ b) (ht : ∀ r, t ≠ 0x20 :: 0x22 :: r) (ht' : ∀ r, t' ≠ 0x20 :: 0x22 :: r)
    (h : idText a ++ t = idText b ++ t') : a = b ∧ t = t' := by
  have l : lit " \"" = [0x20, 0x22] := by decide
  unfold idText at h
  rw [l] at h
  by_cases h1 : a = [] <;> by_cases h2 : b = []
  · simp [h1, h2] at h; exact ⟨by rw [h1, h2], h⟩
  · simp [h1, h2] at h; exact absurd h (ht _)
  · simp [h1, h2] at h; exact absurd h.symm (ht' _)
  · simp only [h1, h2, if_false, List.cons_append, List.nil_append, List.append_assoc, List.cons.injEq, true_and] at h
    obtain ⟨e1, _, e2⟩ := cut (P := fun c => c = 0x22) (fun z hz hp => ha (hp ▸ hz)) (fun z hz hp => hb (hp ▸ hz)) rfl rfl h
    exact ⟨e1, e2⟩

/-! ### type codes -/

/-- all valid codes -/
def codes : List TypeCode := [.Bool, .Int8, .Int16, .Int32, .Int64, .UInt8, .UInt16, .UInt32, .UInt64, .Float32, .Float64, .String, .Any, .Union, .Struct, .Null,
  .BoolA, .Int8A, .Int16A, .Int32A, .Int64A, .UInt8A, .UInt16A, .UInt32A, .UInt64A, .Float32A, .Float64A, .StringA, .AnyA, .UnionA, .StructA]

theorem codes_all (c : TypeCode) (h : c.valid = true) : c ∈ codes := by
  obtain ⟨u⟩ := c
  have key : ∀ k : Fin 256, (TypeCode.mk (UInt8.ofNat k.val)).valid = true → TypeCode.mk (UInt8.ofNat k.val) ∈ codes := by decide +kernel
  have := key ⟨u.toNat, u.toNat_lt⟩
  simp only [UInt8.ofNat_toNat] at this
  exact this h

theorem code_name (c : TypeCode) (h : c.valid = true) : ∀ z ∈ lit c.name, ¬Gap z := by
  have key : ∀ c ∈ codes, ∀ z ∈ lit c.name, ¬(z = 0x20 ∨ z = 0x0a) := by decide +kernel
  exact key c (codes_all c h)

theorem code_inj (c c' : TypeCode) (h : c.valid = true) (h' : c'.valid = true) (e : lit c.name = lit c'.name) : c = c' := by
  have key : ∀ c ∈ codes, ∀ c' ∈ codes, lit c.name = lit c'.name → c = c' := by decide +kernel
  exact key c (codes_all c h) c' (codes_all c' h') e

/-! ### a common form of the two printed forms -/

/-- which types are printed with braces, and which with their ID -/
structure Style where
  braces : TypeCode → Bool → Bool
  ids : TypeCode → Bool

mutual
/-- a type in such a form -/
def layout (s : Style) (n : Nat) : Member → Str → Str
  | ⟨code, _, id, ch⟩, name =>
    lit code.name ++ (idText (if s.ids code then id else []) ++ ((if s.braces code ch.isEmpty then
      0x20 :: 0x7b :: ((if ch.isEmpty then [] else 0x0a :: layouts s n ch ++ indent n) ++ [0x7d]) else []) ++ (nameText name ++ [0x0a])))
/-- its members -/
def layouts (s : Style) (n : Nat) : List Member → Str
  | [] => []
  | c :: cs => indent (n + 1) ++ layout s (n + 1) c c.name ++ layouts s n cs
end

mutual
/-- what the proof needs of a definition -/
def Ok (s : Style) : Member → Prop
  | ⟨code, name, id, ch⟩ => code.valid = true ∧ NameOk name ∧ (0x22 : UInt8) ∉ id ∧ (s.braces code ch.isEmpty = false → ch = []) ∧ OkAll s ch
def OkAll (s : Style) : List Member → Prop
  | [] => True
  | m :: ms => Ok s m ∧ OkAll s ms
end

theorem indent_succ (n : Nat) : indent (n + 1) = indent n ++ [0x20, 0x20, 0x20, 0x20] := by
  have : 4 * (n + 1) = 4 * n + 4 := by omega
  simp only [indent, this]
  rw [← List.replicate_append_replicate]
  rfl

theorem after_code {s : Style} {n : Nat} {code : TypeCode} {id name x : Str} {ch : List Member} :
    ∃ c t, Gap c ∧ (idText (if s.ids code then id else []) ++ ((if s.braces code ch.isEmpty then
      0x20 :: 0x7b :: ((if ch.isEmpty then [] else 0x0a :: layouts s n ch ++ indent n) ++ [0x7d]) else []) ++ (nameText name ++ [0x0a]))) ++ x = c :: t := by
  have l : lit " \"" = [0x20, 0x22] := by decide
  unfold idText nameText
  rw [l]
  by_cases h1 : (if s.ids code = true then id else []) = []
  · rw [if_pos h1]
    by_cases h2 : s.braces code ch.isEmpty = true
    · rw [if_pos h2]; exact ⟨_, _, .inl rfl, rfl⟩
    · rw [if_neg h2]
      by_cases h3 : name = []
      · rw [if_pos h3]; exact ⟨_, _, .inr rfl, rfl⟩
      · rw [if_neg h3]; exact ⟨_, _, .inl rfl, rfl⟩
  · rw [if_neg h1]; exact ⟨_, _, .inl rfl, rfl⟩

mutual
theorem layout_inj (s : Style) : ∀ (m m' : Member) (n : Nat) (nm nm' x y : Str), Ok s m → Ok s m' → NameOk nm → NameOk nm' →
    layout s n m nm ++ x = layout s n m' nm' ++ y →
    m.code = m'.code ∧ nm = nm' ∧ (s.ids m.code = true → m.id = m'.id) ∧ SameAll (fun c => s.ids c = true) m.children m'.children ∧ x = y
  | ⟨code, name, id, ch⟩, ⟨code', name', id', ch'⟩, n, nm, nm', x, y, ho, ho', hn, hn', h => by
    simp only [Ok] at ho ho'
    obtain ⟨v, _, q, hb, hk⟩ := ho
    obtain ⟨v', _, q', hb', hk'⟩ := ho'
    simp only [layout, List.append_assoc] at h
    obtain ⟨c, t, hc, e1⟩ := after_code (s := s) (n := n) (code := code) (id := id) (name := nm) (x := x) (ch := ch)
    obtain ⟨c', t', hc', e1'⟩ := after_code (s := s) (n := n) (code := code') (id := id') (name := nm') (x := y) (ch := ch')
    simp only [List.append_assoc] at e1 e1'
    have h' := h
    rw [e1, e1'] at h
    obtain ⟨e2, e3, e4⟩ := cut (code_name code v) (code_name code' v') hc hc' h
    have ec := code_inj code code' v v' e2
    subst ec
    have h2 := List.append_cancel_left h'
    clear h h' e1 e1' e3 e4 e2 hc hc'
    have pn := plain_name (x := x) hn
    have pn' := plain_name (x := y) hn'
    have gen : ∀ (cond : Bool) (w r : Str), Plain r → ∀ u, (if cond = true then 0x20 :: 0x7b :: w else []) ++ r ≠ 0x20 :: 0x22 :: u := by
      intro cond w r hr u
      cases cond with
      | true => simp
      | false => simpa using hr.1 u
    obtain ⟨ei, h3⟩ := id_cut (by split <;> simp_all) (by split <;> simp_all) (by simpa using gen _ _ _ pn) (by simpa using gen _ _ _ pn') h2
    have hid : s.ids code = true → id = id' := by intro hi; simpa [hi] using ei
    cases hbr : s.braces code ch.isEmpty with
    | false =>
      have c0 := hb hbr
      rw [hbr] at h3
      cases hbr' : s.braces code ch'.isEmpty with
      | false =>
        have c0' := hb' hbr'
        rw [hbr'] at h3
        simp only [Bool.false_eq_true, if_false, List.nil_append, List.cons_append] at h3
        obtain ⟨e5, e6⟩ := name_cut hn hn' h3
        refine ⟨rfl, e5, hid, ?_, e6⟩
        rw [c0, c0']
        exact .nil
      | true =>
        rw [hbr'] at h3
        simp only [Bool.false_eq_true, if_false, if_true, List.nil_append, List.cons_append] at h3
        exact absurd h3 (pn.2 _)
    | true =>
      rw [hbr] at h3
      cases hbr' : s.braces code ch'.isEmpty with
      | false =>
        rw [hbr'] at h3
        simp only [Bool.false_eq_true, if_false, if_true, List.nil_append, List.cons_append] at h3
        exact absurd h3.symm (pn'.2 _)
      | true =>
        rw [hbr'] at h3
        simp only [if_true, List.cons_append, List.cons.injEq, true_and] at h3
        cases ch with
        | nil =>
          cases ch' with
          | nil =>
            simp only [List.isEmpty_nil, if_true, List.nil_append, List.cons_append, List.cons.injEq, true_and] at h3
            obtain ⟨e5, e6⟩ := name_cut hn hn' h3
            exact ⟨rfl, e5, hid, .nil, e6⟩
          | cons k ks => simp at h3
        | cons k ks =>
          cases ch' with
          | nil => simp at h3
          | cons k' ks' =>
            simp only [List.isEmpty_cons, Bool.false_eq_true, if_false, List.nil_append, List.cons_append, List.cons.injEq, true_and, List.append_assoc] at h3
            obtain ⟨e7, e8⟩ := layouts_inj s (k :: ks) (k' :: ks') n _ _ hk hk' h3
            obtain ⟨e5, e6⟩ := name_cut hn hn' e8
            exact ⟨rfl, e5, hid, e7, e6⟩
theorem layouts_inj (s : Style) : ∀ (ms ms' : List Member) (n : Nat) (x y : Str), OkAll s ms → OkAll s ms' →
    layouts s n ms ++ (indent n ++ 0x7d :: x) = layouts s n ms' ++ (indent n ++ 0x7d :: y) →
    SameAll (fun c => s.ids c = true) ms ms' ∧ x = y
  | [], [], n, x, y, _, _, h => by
    simp only [layouts, List.nil_append] at h
    have := List.append_cancel_left h
    simp only [List.cons.injEq, true_and] at this
    exact ⟨.nil, this⟩
  | [], m' :: ms', n, x, y, _, _, h => by
    simp only [layouts, List.nil_append, indent_succ, List.append_assoc] at h
    have := List.append_cancel_left h
    simp at this
  | m :: ms, [], n, x, y, _, _, h => by
    simp only [layouts, List.nil_append, indent_succ, List.append_assoc] at h
    have := List.append_cancel_left h
    simp at this
  | ⟨code, name, id, ch⟩ :: ms, ⟨code', name', id', ch'⟩ :: ms', n, x, y, ho, ho', h => by
    simp only [OkAll] at ho ho'
    have nm : NameOk name := by have := ho.1; simp only [Ok] at this; exact this.2.1
    have nm' : NameOk name' := by have := ho'.1; simp only [Ok] at this; exact this.2.1
    simp only [layouts, List.append_assoc] at h
    have h2 := List.append_cancel_left h
    obtain ⟨e1, e2, e3, e4, e5⟩ := layout_inj s ⟨code, name, id, ch⟩ ⟨code', name', id', ch'⟩ (n + 1) name name' _ _ ho.1 ho'.1 nm nm' h2
    obtain ⟨e6, e7⟩ := layouts_inj s ms ms' n x y ho.2 ho'.2 e5
    simp only at e1 e2 e3 e4
    subst e1 e2
    exact ⟨.cons _ _ _ _ (.mk _ _ _ _ _ _ e3 e4) e6, e7⟩
end

/-! ### the two printed forms have this form -/

/-- src/type.cpp:418-440 -/
def defStyle : Style := ⟨fun _ e => !e, fun _ => true⟩

/-- src/datafmt.cpp:182-271: the ID of the element type of an array is not printed -/
def treeStyle : Style := ⟨fun c _ => c == .Struct || c == .Union || c == .StructA || c == .UnionA, fun c => !(c == .StructA || c == .UnionA)⟩

mutual
theorem showNode_layout (n : Nat) : ∀ (m : Member) (name : Str), showNode n m name = layout defStyle n m name
  | ⟨code, nm, id, ch⟩, name => by
    have l : lit " {\n" = [0x20, 0x7b, 0x0a] := by decide
    rw [showNode, layout, l]
    cases ch with
    | nil => simp [defStyle]
    | cons c cs =>
      rw [showNodes_layout n (c :: cs)]
      simp [defStyle]
theorem showNodes_layout (n : Nat) : ∀ (ms : List Member), showNodes n ms = layouts defStyle n ms
  | [] => by rw [showNodes, layouts]
  | c :: cs => by rw [showNodes, layouts, showNode_layout (n + 1) c c.name, showNodes_layout n cs]
end

/-- a child is determined by any offset inside of it -/
theorem kid_unique : ∀ {ms : List Member} {off o o' : Nat} {c c' : Member}, KidAt off ms o c → KidAt off ms o' c' → o' ≤ o → o < o' + count c' → c = c' ∧ o = o' := by
  intro ms
  induction ms with
  | nil =>
    rintro off o o' c c' ⟨pre, post, h, _⟩
    cases pre <;> simp at h
  | cons m ms ih =>
    rintro off o o' c c' ⟨pre, post, h, ho⟩ ⟨pre', post', h', ho'⟩ h1 h2
    have cpos : ∀ m : Member, 0 < count m := by
      intro m
      obtain ⟨code, n, i, ch⟩ := m
      simp only [count]
      split <;> omega
    cases pre with
    | nil =>
      simp only [List.nil_append, List.cons.injEq] at h
      cases pre' with
      | nil =>
        simp only [List.nil_append, List.cons.injEq] at h'
        exact ⟨h.1.symm.trans h'.1, by rw [ho, ho']⟩
      | cons p pre' =>
        simp only [countKids] at ho ho'
        have := cpos p
        omega
    | cons p pre =>
      simp only [List.cons_append, List.cons.injEq] at h
      cases pre' with
      | nil =>
        simp only [List.nil_append, List.cons.injEq] at h'
        simp only [countKids] at ho ho'
        rw [← h'.1, h.1] at h2
        omega
      | cons p' pre' =>
        simp only [List.cons_append, List.cons.injEq] at h'
        simp only [countKids] at ho ho'
        have e : p = p' := h.1.symm.trans h'.1
        subst e
        exact ih (off := off + count p) ⟨pre, post, h.2, by omega⟩ ⟨pre', post', h'.2, by omega⟩ h1 h2

theorem name_struct (id : Str) (ms : List Member) (hd : DistinctNames ⟨.Struct, [], id, ms⟩) {o : Nat} {c : Member} (h : KidAt 1 ms o c) :
    memberName true (lookKids true [] 1 ms) o = .ok c.name := by
  have hf := full_of_distinct _ hd
  have e : lookKids true [] 1 ms = lookOf ⟨.Struct, [], id, ms⟩ := by
    simp only [lookOf]
    rw [if_neg (by decide)]
    simp
  rw [e]
  have hlen : (lookOf ⟨.Struct, [], id, ms⟩).length = countKids ms := hf rfl
  have hb := h.bound
  have cpos : 0 < count c := by
    obtain ⟨code, n, i, ch⟩ := c
    simp only [count]
    split <;> omega
  have hmem : (c.name, o) ∈ lookOf ⟨.Struct, [], id, ms⟩ :=
    (Full.mem hf rfl _).2 (mem_allEntries.2 ⟨o, c, h, mem_kidEntries.2 (.inl rfl)⟩)
  unfold memberName
  rw [if_neg (by omega)]
  cases hfi : List.find? (fun p => p.2 == o) (lookOf ⟨.Struct, [], id, ms⟩) with
  | none =>
    have := List.find?_eq_none.1 hfi _ hmem
    simp at this
  | some p =>
    have hp := List.mem_of_find?_eq_some hfi
    have hpo : p.2 = o := by simpa using List.find?_some (p := fun p : Str × Nat => p.2 == o) hfi
    obtain ⟨o', c', hk, hq⟩ := mem_allEntries.1 ((Full.mem hf rfl _).1 hp)
    simp only
    rcases mem_kidEntries.1 hq with hq | ⟨hs, k, x, hx, hq⟩
    · have c'pos : 0 < count c' := by
        obtain ⟨code, n, i, ch⟩ := c'
        simp only [count]
        split <;> omega
      rw [hq] at hpo
      simp only at hpo
      obtain ⟨e1, _⟩ := kid_unique h hk (by omega) (by omega)
      rw [hq, e1]
    · have hfc : Full c' := full_of_distinct _ ((distinct_kids hd).2 c' hk.mem).2
      have hx2 := (Full.mem hfc hs _).1 hx
      obtain ⟨o2, c2, hk2, hq2⟩ := mem_allEntries.1 hx2
      have b2 := hk2.bound
      have hxlt : 0 < x ∧ x ≤ countKids c'.children := by
        have h0 : (⟨.Struct, [], id, ms⟩ : Member).code = .Struct := rfl
        have w := wellFormed_flat c' ((distinct_kids hd).2 c' hk.mem).2
        have hn := nodeOK_flat c' hfc 0 (structRoot c') (by rw [flat_struct c' hs]; rfl)
        have hfound := hn.found rfl k x ((SMap.find?_some (lookOf_sorted c')).2 hx)
        rw [structRoot_size] at hfound
        have := lookOf_length_le c' hs
        omega
      rw [hq] at hpo
      simp only at hpo
      have hcc := count_struct c' hs
      obtain ⟨_, e2⟩ := kid_unique h hk (by omega) (by omega)
      omega

theorem name_union (ms : List Member) (hd : (ms.map Member.name).Nodup) {o : Nat} {c : Member} (h : KidAt 0 ms o c) :
    memberName false (lookKids false [] 0 ms) o = .ok c.name := by
  have cpos : ∀ m : Member, 0 < count m := by
    intro m
    obtain ⟨code, n, i, ch⟩ := m
    simp only [count]
    split <;> omega
  rw [lookKids_other]
  have hm : ∀ q, q ∈ SMap.insertAll ([] : SMap Nat) (kidIter 0 ms) ↔ q ∈ kidIter 0 ms := by
    intro q
    rw [SMap.mem_insertAll SMap.sorted_nil (by rw [kidIter_names]; exact hd) (by simp [SMap.keys])]
    simp
  have hmem := (hm (c.name, o)).2 (mem_kidIter.2 ⟨c, h, rfl⟩)
  unfold memberName
  rw [if_neg (by simp)]
  cases hfi : List.find? (fun p => p.2 == o) (SMap.insertAll ([] : SMap Nat) (kidIter 0 ms)) with
  | none =>
    have := List.find?_eq_none.1 hfi _ hmem
    simp at this
  | some p =>
    obtain ⟨pn, po⟩ := p
    have hp := List.mem_of_find?_eq_some hfi
    have hpo : po = o := by simpa using List.find?_some (p := fun p : Str × Nat => p.2 == o) hfi
    obtain ⟨c', hk, hn⟩ := mem_kidIter.1 ((hm _).1 hp)
    have := cpos c'
    obtain ⟨e1, _⟩ := kid_unique h hk (by omega) (by omega)
    simp only
    rw [e1, hn]

theorem treeType_setParent (n k : Nat) (t rest : List FieldDesc) (name : Str) (h : t ≠ []) :
    treeType n (setParent k t ++ rest) name = treeType n (t ++ rest) name := by
  cases t with
  | nil => exact absurd rfl h
  | cons d ds =>
    simp only [setParent, List.cons_append]
    rw [treeType, treeType]

theorem treeType_parent (n : Nat) (st : Bool) (off : Nat) (m : Member) (rest : List FieldDesc) (name : Str) :
    treeType n ((if st then setParent off (flat m) else flat m) ++ rest) name = treeType n (flat m ++ rest) name := by
  cases st
  · rfl
  · exact treeType_setParent _ _ _ _ _ (flat_ne_nil m)

theorem braces_layout (n : Nat) (code : TypeCode) (id name nm : Str) (ch : List Member) (h : treeStyle.braces code ch.isEmpty = true) :
    braces n (lit code.name ++ idText (if treeStyle.ids code then id else [])) name (layouts treeStyle n ch) ch.isEmpty = layout treeStyle n ⟨code, nm, id, ch⟩ name := by
  have l : lit " {" = [0x20, 0x7b] := by decide
  rw [layout, h]
  simp only [braces, l, if_true, List.append_assoc, List.cons_append, List.nil_append]

theorem kidIter_isEmpty (off : Nat) (ms : List Member) : (kidIter off ms).isEmpty = ms.isEmpty := by
  cases ms <;> rfl

mutual
theorem tree_type : ∀ (m : Member) (n : Nat) (rest : List FieldDesc) (name : Str), Validated m → DistinctNames m →
    treeType n (flat m ++ rest) name = .ok (layout treeStyle n m name)
  | ⟨code, nm, id, ch⟩, n, rest, name, h, hd => by
    simp only [Validated] at h
    obtain ⟨h1, hk⟩ := h
    obtain ⟨hv, hid, hch⟩ := validate_ok h1
    simp only at hv hid hch
    have hdk := distinct_kids hd
    have ks : ∀ rest, treeKids n true (lookKids true [] 1 ch) (flatKids true 1 ch ++ rest) 1 (kidIter 1 ch) = .ok (layouts treeStyle n ch) := by
      intro rest
      exact tree_kids ch n true 1 1 (lookKids true [] 1 ch) [] rest (flatKids true 1 ch ++ rest) (by simp) (by simp) hk
        (fun c hc => (hdk.2 c hc).2) (fun o c hkid => name_struct [] ch (distinct_of _ _ _ _ _ _ _ hd) hkid)
    have ku : treeKids n false (lookKids false [] 0 ch) (flatKids false 1 ch) 0 (kidIter 0 ch) = .ok (layouts treeStyle n ch) :=
      tree_kids ch n false 0 0 (lookKids false [] 0 ch) [] [] (flatKids false 1 ch) (by simp [flatKids_off 1 ch 0]) (by simp) hk
        (fun c hc => (hdk.2 c hc).2) (fun o c hkid => name_union ch hdk.1 hkid)
    by_cases hs : code.scalarOf = .Struct ∨ code.scalarOf = .Union
    · rcases valid_cases code hv hs with h | h | h | h
      · subst h
        have := braces_layout n .Struct id name nm ch rfl
        have ei : treeStyle.ids .Struct = true := rfl
        rw [ei] at this
        simp only [if_true] at this
        simp only [flat, assemble, if_true, beq_self_eq_true, List.cons_append]
        rw [if_neg (by decide), List.cons_append, treeType]
        simp only [if_true, ks rest, Res.bind_ok, kidIter_isEmpty]
        rw [this]
      · subst h
        have := braces_layout n .Union id name nm ch rfl
        have ei : treeStyle.ids .Union = true := rfl
        rw [ei] at this
        simp only [if_true] at this
        have e2 : (TypeCode.Union == TypeCode.Struct) = false := by decide
        simp only [flat, assemble, e2]
        rw [if_neg (by decide), if_neg (by decide), List.cons_append, treeType]
        simp only [if_neg (show ¬ (TypeCode.Union = TypeCode.Struct) by decide), if_true, ku, Res.bind_ok, kidIter_isEmpty]
        rw [this]
      · subst h
        have := braces_layout n .StructA id name nm ch rfl
        have ei : treeStyle.ids .StructA = false := rfl
        rw [ei] at this
        simp only [Bool.false_eq_true, if_false] at this
        have e1 : (TypeCode.StructA).scalarOf = .Struct := by decide
        simp only [flat, e1, true_or, if_true, beq_self_eq_true, List.cons_append]
        rw [treeType]
        simp only [if_neg (show ¬ (TypeCode.StructA = TypeCode.Struct) by decide), if_neg (show ¬ (TypeCode.StructA = TypeCode.Union) by decide), true_or, if_true]
        have k0 := ks []
        simp only [List.append_nil] at k0
        simp only [assemble, if_true]
        rw [elemKids]
        simp only [if_true, k0, Res.bind_ok, kidIter_isEmpty]
        rw [this]
      · subst h
        have := braces_layout n .UnionA id name nm ch rfl
        have ei : treeStyle.ids .UnionA = false := rfl
        rw [ei] at this
        simp only [Bool.false_eq_true, if_false] at this
        have e1 : (TypeCode.UnionA).scalarOf = .Union := by decide
        have e2 : (TypeCode.Union == TypeCode.Struct) = false := by decide
        simp only [flat, e1, or_true, if_true, e2, List.cons_append]
        rw [treeType]
        simp only [if_neg (show ¬ (TypeCode.UnionA = TypeCode.Struct) by decide), if_neg (show ¬ (TypeCode.UnionA = TypeCode.Union) by decide), or_true, if_true]
        simp only [assemble, if_neg (show ¬ (TypeCode.Union = TypeCode.Struct) by decide)]
        rw [elemKids]
        simp only [if_neg (show ¬ (TypeCode.Union = TypeCode.Struct) by decide), ku, Res.bind_ok, kidIter_isEmpty]
        rw [this]
    · have h4 : ¬ (code = .StructA ∨ code = .UnionA) := fun h => hs (struct_ne code h)
      have h2 : code ≠ .Struct := by rintro rfl; exact hs (Or.inl (by decide))
      have h3 : code ≠ .Union := by rintro rfl; exact hs (Or.inr (by decide))
      have hi : id = [] := hid.resolve_right hs
      have hc : ch = [] := hch.resolve_right hs
      subst hi hc
      simp only [flat, h4, if_false, assemble, h2, List.cons_append]
      rw [treeType]
      have hb : treeStyle.braces code true = false := by
        simp only [not_or] at h4
        simp [treeStyle, h2, h3, h4.1, h4.2]
      simp only [h4, h2, h3, if_false, layout, List.isEmpty_nil, hb, ite_self, Bool.false_eq_true, List.nil_append, List.append_assoc]
theorem tree_kids : ∀ (ms : List Member) (n : Nat) (st : Bool) (cref off : Nat) (ml : SMap Nat) (pre rest base : List FieldDesc),
    base = pre ++ flatKids st off ms ++ rest → off = cref + pre.length → ValidatedAll ms → (∀ c ∈ ms, DistinctNames c) →
    (∀ o c, KidAt off ms o c → memberName st ml o = .ok c.name) →
    treeKids n st ml base cref (kidIter off ms) = .ok (layouts treeStyle n ms)
  | [], n, st, cref, off, ml, pre, rest, base, hb0, ho, h, hd, hn => by
    simp only [kidIter]
    rw [treeKids, layouts]
  | m :: ms, n, st, cref, off, ml, pre, rest, base, hb0, ho, h, hd, hn => by
    simp only [ValidatedAll] at h
    obtain ⟨hm, hms⟩ := h
    have hlen : (if st then setParent off (flat m) else flat m).length = count m := by
      cases st <;> simp [setParent_length, flat_length]
    have cpos : 0 < count m := by
      obtain ⟨code, n, i, ch⟩ := m
      simp only [count]
      split <;> omega
    have E1 : treeType (n + 1) ((if st then setParent off (flat m) else flat m) ++ (flatKids st (off + count m) ms ++ rest)) m.name
        = .ok (layout treeStyle (n + 1) m m.name) := by
      rw [treeType_parent]
      exact tree_type m (n + 1) (flatKids st (off + count m) ms ++ rest) m.name hm (hd m List.mem_cons_self)
    have E2 := tree_kids ms n st cref (off + count m) ml (pre ++ (if st then setParent off (flat m) else flat m)) rest base
      (by rw [hb0]; simp [flatKids]) (by simp only [List.length_append, hlen]; omega) hms
      (fun c hc => hd c (List.mem_cons_of_mem _ hc))
      (by
        rintro o c ⟨p, q, e, eo⟩
        exact hn o c ⟨m :: p, q, by rw [e]; rfl, by simp only [countKids]; omega⟩)
    have E3 := hn off m ⟨[], ms, rfl, by simp [countKids]⟩
    have hoff : off - cref = pre.length := by omega
    have hdrop : base.drop (off - cref) = (if st then setParent off (flat m) else flat m) ++ (flatKids st (off + count m) ms ++ rest) := by
      rw [hoff, hb0]; simp [flatKids]
    have hle : ¬ (base.length ≤ off - cref) := by
      have := congrArg List.length hdrop
      simp only [List.length_drop, List.length_append, hlen] at this
      omega
    simp only [kidIter]
    rw [treeKids]
    rw [if_neg (by omega), E3]
    simp only [Res.bind_ok, hdrop, E1, E2, layouts]
end

/-! ### accepted definitions -/

theorem cstr_self {n : Str} (h : (0 : UInt8) ∉ n) : Wire.cstr n = n := by
  unfold Wire.cstr
  induction n with
  | nil => rfl
  | cons c n ih =>
    have h1 : c ≠ 0 := fun e => h (e ▸ List.mem_cons_self)
    rw [List.takeWhile_cons]
    simp [h1, ih (fun e => h (List.mem_cons_of_mem _ e))]

theorem char_ok (c : UInt8) (i : Nat) (h : ((decide (0x30 ≤ c) && decide (c ≤ 0x39) && decide (0 < i)) ||
      (decide (0x61 ≤ c) && decide (c ≤ 0x7a)) || (decide (0x41 ≤ c) && decide (c ≤ 0x5a)) || c == 0x5f) = true) : ¬Gap c ∧ c ≠ 0x22 ∧ c ≠ 0x7b := by
  have g : ((0x30 ≤ c ∧ c ≤ 0x39) ∨ (0x61 ≤ c ∧ c ≤ 0x7a) ∨ (0x41 ≤ c ∧ c ≤ 0x5a) ∨ c = 0x5f) := by
    simp only [Bool.or_eq_true, Bool.and_eq_true, decide_eq_true_eq, beq_iff_eq] at h
    rcases h with ((h | h) | h) | h
    · exact .inl h.1
    · exact .inr (.inl h)
    · exact .inr (.inr (.inl h))
    · exact .inr (.inr (.inr h))
  have key : ∀ k : Fin 256, ((0x30 ≤ UInt8.ofNat k.val ∧ UInt8.ofNat k.val ≤ 0x39) ∨ (0x61 ≤ UInt8.ofNat k.val ∧ UInt8.ofNat k.val ≤ 0x7a) ∨
      (0x41 ≤ UInt8.ofNat k.val ∧ UInt8.ofNat k.val ≤ 0x5a) ∨ UInt8.ofNat k.val = 0x5f) →
      ¬(UInt8.ofNat k.val = 0x20 ∨ UInt8.ofNat k.val = 0x0a) ∧ UInt8.ofNat k.val ≠ 0x22 ∧ UInt8.ofNat k.val ≠ 0x7b := by decide +kernel
  have := key ⟨c.toNat, c.toNat_lt⟩
  simp only [UInt8.ofNat_toNat] at this
  exact this g

theorem nameOk_of {m : Member} (h : m.validate = .ok ()) (h0 : (0 : UInt8) ∉ m.name) : NameOk m.name := by
  unfold Member.validate at h
  obtain ⟨_, h1, _⟩ := Res.bind_eq_ok h
  intro c hc
  have hne : m.name ≠ [] := by rintro e; rw [e] at hc; cases hc
  simp only [ifNamed, if_pos hne, nameValidate, cstr_self h0, if_neg hne] at h1
  split at h1
  · rename_i ha
    rw [List.all_eq_true] at ha
    obtain ⟨i, hi, e⟩ := List.mem_iff_getElem.1 hc
    exact char_ok c i (ha (c, i) (by rw [← e]; exact List.mem_iff_getElem.2 ⟨i, by simpa using hi, by simp⟩))
  · cases h1

theorem nameOk_nil : NameOk [] := fun _ h => by cases h

mutual
theorem ok_of (s : Style) (hs : ∀ c e, s.braces c e = false → e = true ∨ ¬(c = .Struct ∨ c = .Union ∨ c = .StructA ∨ c = .UnionA)) :
    ∀ m : Member, Validated m → Legible m → Ok s m
  | ⟨code, name, id, ch⟩, h, hl => by
    simp only [Validated] at h
    simp only [Legible] at hl
    obtain ⟨hv, _, hch⟩ := validate_ok h.1
    simp only at hv hch
    refine ⟨hv, nameOk_of h.1 hl.2.1, hl.1, ?_, okAll_of s hs ch h.2 hl.2.2⟩
    intro hb
    rcases hs _ _ hb with e | e
    · simpa using e
    · refine hch.resolve_right (fun hx => ?_)
      rcases valid_cases code hv hx with h | h | h | h
      · exact e (.inl h)
      · exact e (.inr (.inl h))
      · exact e (.inr (.inr (.inl h)))
      · exact e (.inr (.inr (.inr h)))
theorem okAll_of (s : Style) (hs : ∀ c e, s.braces c e = false → e = true ∨ ¬(c = .Struct ∨ c = .Union ∨ c = .StructA ∨ c = .UnionA)) :
    ∀ ms : List Member, ValidatedAll ms → LegibleAll ms → OkAll s ms
  | [], _, _ => trivial
  | m :: ms, h, hl => ⟨ok_of s hs m h.1 hl.1, okAll_of s hs ms h.2 hl.2⟩
end

mutual
theorem same_eq {ids : TypeCode → Prop} : ∀ {m m' : Member}, (∀ c, ids c) → Same ids m m' → m = m'
  | _, _, h, .mk code name id id' ch ch' hi hc => by rw [hi (h code), sameAll_eq h hc]
theorem sameAll_eq {ids : TypeCode → Prop} : ∀ {m m' : List Member}, (∀ c, ids c) → SameAll ids m m' → m = m'
  | _, _, _, .nil => rfl
  | _, _, h, .cons m m' ms ms' h1 h2 => by rw [same_eq h h1, sameAll_eq h h2]
end

mutual
theorem same_mono {p q : TypeCode → Prop} (hp : ∀ c, q c → p c) : ∀ {m m' : Member}, Same p m m' → Same q m m'
  | _, _, .mk code name id id' ch ch' hi hc => .mk code name id id' ch ch' (fun h => hi (hp _ h)) (sameAll_mono hp hc)
theorem sameAll_mono {p q : TypeCode → Prop} (hp : ∀ c, q c → p c) : ∀ {m m' : List Member}, SameAll p m m' → SameAll q m m'
  | _, _, .nil => .nil
  | _, _, .cons m m' ms ms' h1 h2 => .cons m m' ms ms' (same_mono hp h1) (sameAll_mono hp h2)
end

mutual
theorem same_noid : ∀ {m m' : Member}, Same NotArray m m' → NoArrayId m → NoArrayId m' → m = m'
  | _, _, .mk code name id id' ch ch' hi hc, h, h' => by
    simp only [NoArrayId] at h h'
    rw [sameAll_noid hc h.2 h'.2]
    by_cases hx : NotArray code
    · rw [hi hx]
    · rw [h.1.resolve_left hx, h'.1.resolve_left hx]
theorem sameAll_noid : ∀ {m m' : List Member}, SameAll NotArray m m' → NoArrayIdAll m → NoArrayIdAll m' → m = m'
  | _, _, .nil, _, _ => rfl
  | _, _, .cons m m' ms ms' h1 h2, h, h' => by
    simp only [NoArrayIdAll] at h h'
    rw [same_noid h1 h.1 h'.1, sameAll_noid h2 h.2 h'.2]
end

/-! ### C108 -/

/-- A definition (apart from the name of the whole, which is not printed) can be told from the text `operator<<` of a TypeDef prints, if
the IDs have no quotation marks and the names no NUL: whatever else the stream held before (`n` levels of indentation) or gets after. -/
theorem C108_typedef_partial (n : Nat) (m m' : Member) (x y : Str) (hv : Validated m) (hv' : Validated m') (hl : Legible m) (hl' : Legible m')
    (h : showDef n (some m) ++ x = showDef n (some m') ++ y) : m.code = m'.code ∧ m.id = m'.id ∧ m.children = m'.children ∧ x = y := by
  simp only [showDef, showNode_layout] at h
  have hs : ∀ c e, defStyle.braces c e = false → e = true ∨ ¬(c = .Struct ∨ c = .Union ∨ c = .StructA ∨ c = .UnionA) := by
    intro c e he
    left
    simpa [defStyle] using he
  obtain ⟨e1, _, e3, e4, e5⟩ := layout_inj defStyle m m' n [] [] x y (ok_of _ hs m hv hl) (ok_of _ hs m' hv' hl') nameOk_nil nameOk_nil h
  exact ⟨e1, e3 rfl, sameAll_eq (fun _ => rfl) e4, e5⟩

/-- and an empty definition prints like no other -/
theorem C108_empty (n : Nat) (m : Member) (x y : Str) (hv : Validated m) : showDef n none ++ x ≠ showDef n (some m) ++ y := by
  obtain ⟨code, nm, id, ch⟩ := m
  simp only [Validated] at hv
  have hc := (validate_ok hv.1).1
  have key : ∀ c ∈ codes, ∃ a t, lit c.name = a :: t ∧ a ≠ 0x3c := by
    intro c hc
    have : ∀ c ∈ codes, (lit c.name).headD 0x3c ≠ 0x3c := by decide +kernel
    have := this c hc
    cases e : lit c.name with
    | nil => rw [e] at this; exact absurd rfl this
    | cons a t => rw [e] at this; exact ⟨a, t, rfl, this⟩
  obtain ⟨a, t, e, ha⟩ := key code (codes_all code hc)
  have l : lit "<Empty>\n" = 0x3c :: lit "Empty>\n" := by decide
  simp only [showDef, showNode, e, l, List.cons_append]
  intro h
  simp only [List.cons.injEq] at h
  exact ha h.1.symm

/-- Printing the type of a value (what pvxinfo shows) never fails, for a value of any definition which could be built -/
theorem C108_value_total (n : Nat) (m : Member) (t : List FieldDesc) (hv : Validated m) (hd : DistinctNames m) (hb : build m = .ok t) :
    ∃ s, showType n t = .ok s := by
  rw [build_total m hv hd] at hb
  cases hb
  have := tree_type m n [] [] hv hd
  simp only [List.append_nil] at this
  simp only [showType, this, Res.bind_ok]
  exact ⟨_, rfl⟩

/-- The type of a value can be told from the text, except for the name of the whole and for the IDs of the element types of arrays -/
theorem C108_value_partial (n : Nat) (m m' : Member) (t t' : List FieldDesc) (hv : Validated m) (hv' : Validated m')
    (hd : DistinctNames m) (hd' : DistinctNames m') (hl : Legible m) (hl' : Legible m') (hb : build m = .ok t) (hb' : build m' = .ok t')
    (h : showType n t = showType n t') : m.code = m'.code ∧ (NotArray m.code → m.id = m'.id) ∧ SameAll NotArray m.children m'.children := by
  rw [build_total m hv hd] at hb
  rw [build_total m' hv' hd'] at hb'
  cases hb
  cases hb'
  have e := tree_type m n [] [] hv hd
  have e' := tree_type m' n [] [] hv' hd'
  simp only [List.append_nil] at e e'
  simp only [showType, e, e', Res.bind_ok, Res.ok.injEq] at h
  have hs : ∀ c e, treeStyle.braces c e = false → e = true ∨ ¬(c = .Struct ∨ c = .Union ∨ c = .StructA ∨ c = .UnionA) := by
    intro c e he
    right
    simp only [treeStyle, Bool.or_eq_false_iff, beq_eq_false_iff_ne] at he
    rintro (h | h | h | h)
    · exact he.1.1.1 h
    · exact he.1.1.2 h
    · exact he.1.2 h
    · exact he.2 h
  have hids : ∀ c, NotArray c → treeStyle.ids c = true := by
    intro c hc
    simp [treeStyle, hc.1, hc.2]
  have h2 := List.append_cancel_left h
  obtain ⟨e1, _, e3, e4, _⟩ := layout_inj treeStyle m m' n [] [] [] [] (ok_of _ hs m hv hl) (ok_of _ hs m' hv' hl') nameOk_nil nameOk_nil
    (by rw [h2])
  exact ⟨e1, fun hn => e3 (hids _ hn), sameAll_mono hids e4⟩

/-- and completely if those have none -/
theorem C108_value_exact_partial (n : Nat) (m m' : Member) (t t' : List FieldDesc) (hv : Validated m) (hv' : Validated m')
    (hd : DistinctNames m) (hd' : DistinctNames m') (hl : Legible m) (hl' : Legible m') (hi : NoArrayId m) (hi' : NoArrayId m')
    (hb : build m = .ok t) (hb' : build m' = .ok t')
    (h : showType n t = showType n t') : m.code = m'.code ∧ m.id = m'.id ∧ m.children = m'.children := by
  obtain ⟨e1, e2, e3⟩ := C108_value_partial n m m' t t' hv hv' hd hd' hl hl' hb hb' h
  obtain ⟨code, nm, id, ch⟩ := m
  obtain ⟨code', nm', id', ch'⟩ := m'
  simp only at e1 e2 e3
  subst e1
  simp only [NoArrayId] at hi hi'
  refine ⟨rfl, ?_, sameAll_noid e3 hi.2 hi'.2⟩
  by_cases hx : NotArray code
  · exact e2 hx
  · simp only
    rw [hi.1.resolve_left hx, hi'.1.resolve_left hx]

/-! ### what goes wrong -/

/-- a structure of an array of structures with the ID "one", and the same with "two" -/
def arr (id : String) : Member := ⟨.Struct, [], lit "top", [⟨.StructA, lit "a", lit id, [⟨.Int32, lit "x", [], []⟩]⟩]⟩

/-- the ID of the element type of an array is not shown by the tree format: two types which are told apart by their IDs print the same -/
theorem C108_array_id : Validated (arr "one") ∧ Validated (arr "two") ∧ DistinctNames (arr "one") ∧ DistinctNames (arr "two") ∧
    Legible (arr "one") ∧ Legible (arr "two") ∧
    (∀ n t t', build (arr "one") = .ok t → build (arr "two") = .ok t' → showType n t = showType n t') ∧
    arr "one" ≠ arr "two" ∧ showDef 0 (some (arr "one")) ≠ showDef 0 (some (arr "two")) := by
  have v1 : Validated (arr "one") := by simp only [arr, Validated, ValidatedAll]; decide
  have v2 : Validated (arr "two") := by simp only [arr, Validated, ValidatedAll]; decide
  have d1 : DistinctNames (arr "one") := by simp only [arr, DistinctNames, DistinctNamesAll]; decide
  have d2 : DistinctNames (arr "two") := by simp only [arr, DistinctNames, DistinctNamesAll]; decide
  refine ⟨v1, v2, d1, d2, by simp only [arr, Legible, LegibleAll]; decide, by simp only [arr, Legible, LegibleAll]; decide, ?_, fun h => absurd (congrArg (fun m : Member => m.children.map Member.id) h) (by decide), by decide⟩
  intro n t t' h h'
  rw [build_total _ v1 d1] at h
  rw [build_total _ v2 d2] at h'
  cases h
  cases h'
  have e := tree_type (arr "one") n [] [] v1 d1
  have e' := tree_type (arr "two") n [] [] v2 d2
  simp only [List.append_nil] at e e'
  have hids : treeStyle.ids .StructA = false := rfl
  simp only [showType, e, e', Res.bind_ok]
  simp only [arr, layout, layouts, hids, Bool.false_eq_true, if_false, List.isEmpty_cons, Bool.false_eq_true, if_false]

/-- an ID with quotation marks -/
def quoted : Member := ⟨.Struct, [], [], [⟨.Struct, lit "z", lit "a\" x\n    struct \"b", []⟩]⟩
/-- two members -/
def two : Member := ⟨.Struct, [], [], [⟨.Struct, lit "x", lit "a", []⟩, ⟨.Struct, lit "z", lit "b", []⟩]⟩

/-- an ID is not escaped: one which holds a quotation mark makes a definition print like another -/
theorem C108_quote : Validated quoted ∧ Validated two ∧ DistinctNames quoted ∧ DistinctNames two ∧ quoted ≠ two ∧
    showDef 0 (some quoted) = showDef 0 (some two) := by
  refine ⟨by simp only [quoted, Validated, ValidatedAll]; decide, by simp only [two, Validated, ValidatedAll]; decide,
    by simp only [quoted, DistinctNames, DistinctNamesAll]; decide, by simp only [two, DistinctNames, DistinctNamesAll]; decide, fun h => absurd (congrArg (fun m : Member => m.children.map Member.id) h) (by decide), by decide⟩

/-- the same in the tree format -/
def quotedT : Member := ⟨.Struct, [], [], [⟨.Struct, lit "z", lit "a\" {} x\n    struct \"b", []⟩]⟩
theorem C108_quote_value : Validated quotedT ∧ DistinctNames quotedT ∧ quotedT ≠ two ∧
    (∀ t t', build quotedT = .ok t → build two = .ok t' → showType 0 t = showType 0 t') := by
  have v1 : Validated quotedT := by simp only [quotedT, Validated, ValidatedAll]; decide
  have v2 : Validated two := by simp only [two, Validated, ValidatedAll]; decide
  have d1 : DistinctNames quotedT := by simp only [quotedT, DistinctNames, DistinctNamesAll]; decide
  have d2 : DistinctNames two := by simp only [two, DistinctNames, DistinctNamesAll]; decide
  refine ⟨v1, d1, fun h => absurd (congrArg (fun m : Member => m.children.map Member.id) h) (by decide), ?_⟩
  intro t t' h h'
  rw [build_total _ v1 d1] at h
  rw [build_total _ v2 d2] at h'
  cases h
  cases h'
  have e := tree_type quotedT 0 [] [] v1 d1
  have e' := tree_type two 0 [] [] v2 d2
  simp only [List.append_nil] at e e'
  have : layout treeStyle 0 quotedT [] = layout treeStyle 0 two [] := by decide
  simp only [showType, e, e', Res.bind_ok, this]

/-- a name which goes on after a NUL is accepted; it prints as something else -/
def nul : Member := ⟨.Struct, [], [], [⟨.Int32, lit "x\x00\n    string y", [], []⟩]⟩
theorem C108_nul : Validated nul ∧ DistinctNames nul ∧
    showDef 0 (some nul) = lit "struct {\n    int32_t x\x00\n    string y\n}\n" := by
  refine ⟨by simp only [nul, Validated, ValidatedAll]; decide, by simp only [nul, DistinctNames, DistinctNamesAll]; decide, by decide⟩

/-! ### the hypotheses are met, and the text is as expected -/

def demo : Member := ⟨.Struct, lit "v", lit "demo/x:1.0", [⟨.Int32, lit "a", [], []⟩, ⟨.Union, lit "u", [], [⟨.String, lit "s", [], []⟩, ⟨.StructA, lit "q", [], []⟩]⟩,
  ⟨.Struct, lit "e", [], []⟩]⟩

example : Validated demo ∧ DistinctNames demo ∧ Legible demo ∧ NoArrayId demo :=
  ⟨by simp only [demo, Validated, ValidatedAll]; decide, by simp only [demo, DistinctNames, DistinctNamesAll]; decide,
   by simp only [demo, Legible, LegibleAll]; decide, by simp only [demo, NoArrayId, NoArrayIdAll, NotArray]; decide⟩

example : showDef 0 (some demo) = lit "struct \"demo/x:1.0\" {\n    int32_t a\n    union {\n        string s\n        struct[] q\n    } u\n    struct e\n}\n" := by decide
example : layout treeStyle 0 demo [] = lit "struct \"demo/x:1.0\" {\n    int32_t a\n    union {\n        string s\n        struct[] {} q\n    } u\n    struct {} e\n}\n" := by decide

end Pvxs.Props.TyTxt
