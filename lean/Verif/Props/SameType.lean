import Verif.Lemmas.ValueOps
import Verif.Lemmas.Assign
import Verif.Props.ValueOps
import Verif.Spec.SameType
/-
C57: comparison of types.
-/
namespace Pvxs.Props.Same
open Pvxs Pvxs.Spec Wire

/-! ### definitions -/

theorem sameShape_iff (m m' : Member) : SameShape m m' ↔ m.code = m'.code ∧ SameKids m.children m'.children := by
  obtain ⟨c, n, i, ch⟩ := m
  simp only [SameShape]

theorem sameKids_cons (m : Member) (ms ms' : List Member) : SameKids (m :: ms) ms' ↔ ∃ m' more, ms' = m' :: more ∧ m.name = m'.name ∧ SameShape m m' ∧ SameKids ms more := by
  simp only [SameKids]

theorem sameKids_nil (ms' : List Member) : SameKids [] ms' ↔ ms' = [] := by
  simp only [SameKids]

/-- what the table of a definition is made of is the same -/
theorem same_of : ∀ m m' : Member, SameShape m m' → count m = count m' ∧ lookOf m = lookOf m' := by
  intro m
  induction m using Member.ind with
  | h m ih =>
    intro m' h
    obtain ⟨hc, hk⟩ := (sameShape_iff m m').mp h
    have kids : ∀ ms ms', (∀ c ∈ ms, ∀ m', SameShape c m' → count c = count m' ∧ lookOf c = lookOf m') → SameKids ms ms' →
        countKids ms = countKids ms' ∧ ∀ st ml off, lookKids st ml off ms = lookKids st ml off ms' := by
      intro ms
      induction ms with
      | nil =>
        intro ms' _ h
        rw [(sameKids_nil ms').mp h]
        exact ⟨rfl, fun _ _ _ => rfl⟩
      | cons a ms ih2 =>
        intro ms' h1 h
        obtain ⟨a', more, rfl, hn, hs, hk⟩ := (sameKids_cons a ms ms').mp h
        obtain ⟨h2, h3⟩ := h1 a (by simp) a' hs
        obtain ⟨h4, h5⟩ := ih2 more (fun c hc => h1 c (List.mem_cons_of_mem _ hc)) hk
        refine ⟨by simp only [countKids, h2, h4], fun st ml off => ?_⟩
        simp only [lookKids]
        rw [h2, h5, hn, ((sameShape_iff a a').mp hs).1, h3]
    obtain ⟨h1, h2⟩ := kids m.children m'.children (fun c hcm m' => ih c hcm m') hk
    obtain ⟨c, n, i, ch⟩ := m
    obtain ⟨c', n', i', ch'⟩ := m'
    simp only at hc h1 h2
    subst hc
    simp only [count, lookOf, h1, h2, and_self]

theorem sameKids_iter : ∀ (ms ms' : List Member), SameKids ms ms' → countKids ms = countKids ms' ∧
    (∀ off, kidIter off ms = kidIter off ms') ∧ ∀ st ml off, lookKids st ml off ms = lookKids st ml off ms' := by
  intro ms
  induction ms with
  | nil =>
    intro ms' h
    rw [(sameKids_nil ms').mp h]
    exact ⟨rfl, fun _ => rfl, fun _ _ _ => rfl⟩
  | cons a ms ih2 =>
    intro ms' h
    obtain ⟨a', more, rfl, hn, hs, hk⟩ := (sameKids_cons a ms ms').mp h
    obtain ⟨h2, h3⟩ := same_of a a' hs
    obtain ⟨h4, h5, h6⟩ := ih2 more hk
    refine ⟨by simp only [countKids, h2, h4], fun off => by simp only [kidIter, h2, h5, hn], fun st ml off => ?_⟩
    simp only [lookKids]
    rw [h2, h6, hn, ((sameShape_iff a a').mp hs).1, h3]

/-! ### the comparison of tables -/

theorem nodes_zero (A B : List FieldDesc) : equalNodes 0 A B = .ok true := by rw [equalNodes]

theorem nodes_cons (n : Nat) (a b : FieldDesc) (A B : List FieldDesc) :
    equalNodes (n+1) (a :: A) (b :: B) = (equalNode a b >>= fun same => if same then equalNodes n A B else .ok false) := by rw [equalNodes]

theorem node_parent (a b : FieldDesc) (i j : Nat) : equalNode { a with parentIndex := i } { b with parentIndex := j } = equalNode a b := by
  rw [equalNode, equalNode]

theorem nodes_setParent (n i j : Nat) (A B : List FieldDesc) : equalNodes n (setParent i A) (setParent j B) = equalNodes n A B := by
  cases n with
  | zero => rw [nodes_zero, nodes_zero]
  | succ n =>
    cases A with
    | nil => simp [setParent, equalNodes]
    | cons a A =>
      cases B with
      | nil => simp [setParent, equalNodes]
      | cons b B => simp only [setParent, nodes_cons, node_parent]

/-- one after the other -/
theorem nodes_append : ∀ (n k : Nat) (A A' B B' : List FieldDesc), A.length = n → B.length = n →
    equalNodes (n + k) (A ++ A') (B ++ B') = (equalNodes n A B >>= fun same => if same then equalNodes k A' B' else .ok false) := by
  intro n
  induction n with
  | zero =>
    intro k A A' B B' ha hb
    rw [List.length_eq_zero_iff.mp ha, List.length_eq_zero_iff.mp hb, nodes_zero]
    simp
  | succ n ih =>
    intro k A A' B B' ha hb
    cases A with
    | nil => simp at ha
    | cons a A =>
      cases B with
      | nil => simp at hb
      | cons b B =>
        rw [show n + 1 + k = (n + k) + 1 by omega]
        simp only [List.cons_append, nodes_cons]
        rw [ih k A A' B B' (by simpa using ha) (by simpa using hb)]
        cases equalNode a b with
        | ok v => cases v <;> rfl
        | throws m => rfl
        | ub => rfl

theorem nodes_prefix (n : Nat) (A A' B B' : List FieldDesc) (ha : A.length = n) (hb : B.length = n) :
    equalNodes n (A ++ A') (B ++ B') = equalNodes n A B := by
  have := nodes_append n 0 A A' B B' ha hb
  rw [Nat.add_zero] at this
  rw [this]
  cases equalNodes n A B with
  | ok v => cases v <;> simp [nodes_zero]
  | throws m => rfl
  | ub => rfl

/-- the name tables of two structures with the same number of fields -/
theorem lookup_struct (am bm : List FieldDesc) : ∀ l l' : SMap Nat, l.length = l'.length → equalLookup false am bm l l' = .ok (decide (l = l')) := by
  intro l
  induction l with
  | nil =>
    intro l' h
    rw [equalLookup, List.length_eq_zero_iff.mp h.symm]
    simp
  | cons p l ih =>
    intro l' h
    cases l' with
    | nil => simp at h
    | cons p' l' =>
      obtain ⟨n, o⟩ := p
      obtain ⟨n', o'⟩ := p'
      rw [equalLookup]
      by_cases h1 : n = n'
      · by_cases h2 : o = o'
        · subst h1 h2
          simp [ih l' (by simpa using h)]
        · simp [h1, h2]
      · simp [h1]

theorem type_flat (m m' : Member) (hf : Full m) (hf' : Full m') (q q' : List FieldDesc) :
    equalType (flat m ++ q) (flat m' ++ q') = if count m = count m' then equalNodes (count m) (flat m) (flat m') else .ok false := by
  obtain ⟨d, ds, h1, h2, _⟩ := root_size m hf
  obtain ⟨d', ds', h1', h2', _⟩ := root_size m' hf'
  rw [h1, h1', List.cons_append, List.cons_append, equalType, h2, h2', ← List.cons_append, ← List.cons_append, ← h1, ← h1']
  by_cases h : count m = count m'
  · rw [if_neg (by simpa using h), if_pos h]
    exact nodes_prefix _ _ _ _ _ (flat_length m) (by rw [flat_length, h])
  · rw [if_pos h, if_neg h]

/-! ### the same fields at the same places -/

/-- members with the same names, and of the same size -/
def Aligned : List Member → List Member → Prop
  | [], ms' => ms' = []
  | m :: ms, ms' => ∃ m' more, ms' = m' :: more ∧ m.name = m'.name ∧ count m = count m' ∧ Aligned ms more

theorem kidIter_ge {off : Nat} {ms : List Member} {n : Str} {o : Nat} (h : (n, o) ∈ kidIter off ms) : off ≤ o := by
  obtain ⟨c, hc, _⟩ := mem_kidIter.mp h
  exact hc.bound.1

theorem aligned_of : ∀ (ms ms' : List Member) (off : Nat), (∀ p, p ∈ kidIter off ms ↔ p ∈ kidIter off ms') → countKids ms = countKids ms' →
    Aligned ms ms' := by
  intro ms
  induction ms with
  | nil =>
    intro ms' off h _
    cases ms' with
    | nil => rfl
    | cons m' more =>
      have := (h (m'.name, off)).mpr (by simp [kidIter])
      simp [kidIter] at this
  | cons m ms ih =>
    intro ms' off h hcnt
    cases ms' with
    | nil =>
      have := (h (m.name, off)).mp (by simp [kidIter])
      simp [kidIter] at this
    | cons m' more =>
      have p0 := count_pos m
      have p0' := count_pos m'
      simp only [kidIter, countKids] at h hcnt
      have hname : m.name = m'.name := by
        rcases List.mem_cons.mp ((h (m.name, off)).mp (by simp)) with e | e
        · injection e with e _
        · have := kidIter_ge e
          omega
      have hcount : count m = count m' := by
        cases ms with
        | nil =>
          cases more with
          | nil => simpa [countKids] using hcnt
          | cons b more =>
            have := (h (b.name, off + count m')).mpr (by simp [kidIter])
            simp only [kidIter, List.mem_singleton, Prod.mk.injEq] at this
            omega
        | cons a ms =>
          cases more with
          | nil =>
            have := (h (a.name, off + count m)).mp (by simp [kidIter])
            simp only [kidIter, List.mem_singleton, Prod.mk.injEq] at this
            omega
          | cons b more =>
            have h1 := (h (a.name, off + count m)).mp (by simp [kidIter])
            have h2 := (h (b.name, off + count m')).mpr (by simp [kidIter])
            have h3 : off + count m' ≤ off + count m := by
              rcases List.mem_cons.mp h1 with e | e
              · injection e with _ e; omega
              · exact kidIter_ge e
            have h4 : off + count m ≤ off + count m' := by
              rcases List.mem_cons.mp h2 with e | e
              · injection e with _ e; omega
              · exact kidIter_ge e
            omega
      refine ⟨m', more, rfl, hname, hcount, ih more (off + count m) (fun p => ?_) (by omega)⟩
      have hp := h p
      rw [← hcount, ← hname, List.mem_cons, List.mem_cons] at hp
      constructor
      · intro e
        rcases hp.mp (Or.inr e) with e' | e'
        · have := kidIter_ge (n := p.1) (o := p.2) e
          rw [e'] at this
          simp only at this
          omega
        · exact e'
      · intro e
        rcases hp.mpr (Or.inr e) with e' | e'
        · have := kidIter_ge (n := p.1) (o := p.2) e
          rw [e'] at this
          simp only at this
          omega
        · exact e'

theorem iter_of_look (m : Member) (hd : DistinctNames m) (hs : m.code = .Struct) (p : Str × Nat) :
    p ∈ kidIter 1 m.children ↔ p ∈ lookOf m ∧ (0x2e : Byte) ∉ p.1 := by
  obtain ⟨n, o⟩ := p
  rw [(full_of_distinct m hd).mem hs, mem_allEntries, mem_kidIter]
  have hk := (distinct_kids hd).2
  constructor
  · rintro ⟨c, hc, rfl⟩
    exact ⟨⟨o, c, hc, mem_kidEntries.mpr (Or.inl rfl)⟩, (hk c hc.mem).1⟩
  · rintro ⟨⟨o', c, hc, hq⟩, hn⟩
    rcases mem_kidEntries.mp hq with e | ⟨_, q, x, _, e⟩
    · injection e with e1 e2
      subst e1 e2
      exact ⟨c, hc, rfl⟩
    · injection e with e1 e2
      exact absurd (by rw [e1]; simp) hn

/-! ### members -/

/-- what is shown of each pair of definitions -/
def Compares (m m' : Member) : Prop :=
  ∃ b, equalNodes (count m) (flat m) (flat m') = .ok b ∧ (b = true ↔ SameShape m m')

theorem kids_compare : ∀ (ms ms' : List Member), Aligned ms ms' → (∀ c ∈ ms, ∀ c' ∈ ms', count c = count c' → Compares c c') →
    ∀ off off', ∃ b, equalNodes (countKids ms) (flatKids true off ms) (flatKids true off' ms') = .ok b ∧ (b = true ↔ SameKids ms ms') := by
  intro ms
  induction ms with
  | nil =>
    intro ms' h _ off off'
    simp only [Aligned] at h
    subst h
    exact ⟨true, by rw [countKids, nodes_zero], by simp [SameKids]⟩
  | cons m ms ih =>
    intro ms' h hc off off'
    obtain ⟨m', more, rfl, hn, hcnt, hal⟩ := h
    obtain ⟨b, h1, h2⟩ := hc m (by simp) m' (by simp) hcnt
    obtain ⟨b', h3, h4⟩ := ih more hal (fun c hcm c' hcm' => hc c (List.mem_cons_of_mem _ hcm) c' (List.mem_cons_of_mem _ hcm')) (off + count m) (off' + count m')
    simp only [countKids, flatKids, if_true]
    rw [nodes_append (count m) _ _ _ _ _ (by rw [setParent_length, flat_length]) (by rw [setParent_length, flat_length, hcnt]), nodes_setParent, h1, Res.bind_ok]
    cases b with
    | false =>
      refine ⟨false, by simp, ⟨fun e => (by cases e), fun e => ?_⟩⟩
      obtain ⟨m'', more', e1, _, hs, _⟩ := (sameKids_cons m ms _).mp e
      injection e1 with e1 _
      subst e1
      exact h2.mpr hs
    | true =>
      refine ⟨b', by simpa using h3, h4.trans ?_⟩
      rw [sameKids_cons]
      constructor
      · intro hk
        exact ⟨m', more, rfl, hn, h2.mp rfl, hk⟩
      · rintro ⟨m'', more', e, _, _, hk⟩
        injection e with _ e
        subst e
        exact hk

theorem struct_compare (m m' : Member) (hd : DistinctNames m) (hd' : DistinctNames m') (hs : m.code = .Struct) (hs' : m'.code = .Struct)
    (hcnt : count m = count m') (hc : ∀ c ∈ m.children, ∀ c' ∈ m'.children, count c = count c' → Compares c c') : Compares m m' := by
  have hf := full_of_distinct m hd
  have hf' := full_of_distinct m' hd'
  have hlen : (lookOf m).length = (lookOf m').length := by
    rw [hf hs, hf' hs']
    have := count_struct m hs
    have := count_struct m' hs'
    omega
  have hkc : countKids m.children = countKids m'.children := by
    have := count_struct m hs
    have := count_struct m' hs'
    omega
  have hnode : equalNode (structRoot m) (structRoot m') = .ok (decide (lookOf m = lookOf m')) := by
    rw [equalNode]
    simp only [structRoot]
    rw [if_neg (by simp), if_neg (by decide), if_pos (by decide)]
    exact lookup_struct _ _ _ _ hlen
  unfold Compares
  rw [flat_struct m hs, flat_struct m' hs', count_struct m hs, Nat.add_comm 1, nodes_cons, hnode, Res.bind_ok]
  by_cases hl : lookOf m = lookOf m'
  · rw [decide_eq_true hl, if_pos rfl]
    have hal : Aligned m.children m'.children := aligned_of _ _ 1 (fun p => by rw [iter_of_look m hd hs, iter_of_look m' hd' hs', hl]) hkc
    obtain ⟨b, h1, h2⟩ := kids_compare _ _ hal hc 1 1
    refine ⟨b, h1, h2.trans ?_⟩
    rw [sameShape_iff, hs, hs']
    simp
  · rw [decide_eq_false hl]
    exact ⟨false, by simp, ⟨fun e => (by cases e), fun e => absurd (same_of m m' e).2 hl⟩⟩

/-! ### types a program defines -/

theorem noUnion_kids {m : Member} (h : NoUnion m) : m.code ≠ .Union ∧ m.code ≠ .UnionA ∧ ∀ c ∈ m.children, NoUnion c := by
  obtain ⟨c, n, i, ch⟩ := m
  simp only [NoUnion] at h
  refine ⟨h.1, h.2.1, ?_⟩
  have : ∀ ms, NoUnions ms → ∀ c ∈ ms, NoUnion c := by
    intro ms
    induction ms with
    | nil => intro _ c hc; simp at hc
    | cons a ms ih =>
      intro hn c hc
      simp only [NoUnions] at hn
      rcases List.mem_cons.mp hc with rfl | hc
      · exact hn.1
      · exact ih hn.2 c hc
  exact this ch h.2.2

theorem validated_kids {m : Member} (h : Validated m) : (∀ c ∈ m.children, Validated c) ∧
    (m.code.scalarOf ≠ .Struct → m.code.scalarOf ≠ .Union → m.children = []) := by
  obtain ⟨code, n, i, ch⟩ := m
  simp only [Validated] at h
  refine ⟨validatedAll_mem h.2, fun h1 h2 => ?_⟩
  cases ch with
  | nil => rfl
  | cons c cs =>
    have hv := h.1
    simp only [Member.validate] at hv
    simp only at h1 h2
    cases h3 : ifNamed n (nameValidate n) with
    | ok u =>
      rw [h3, Res.bind_ok] at hv
      cases h4 : nodeValidate none i code with
      | ok u =>
        rw [h4, Res.bind_ok] at hv
        have hv : (nodeValidate (some code) c.id c.code >>= fun _ => cs.forM fun c => nodeValidate (some code) c.id c.code) = .ok () := hv
        have h5 : ∃ e, nodeValidate (some code) c.id c.code = .throws e := by
          unfold nodeValidate
          split
          · exact ⟨_, rfl⟩
          · split
            · exact ⟨_, rfl⟩
            · simp only
              rw [if_pos ⟨h1, h2⟩]
              exact ⟨_, rfl⟩
        obtain ⟨e, h5⟩ := h5
        rw [h5] at hv
        cases hv
      | throws e => rw [h4] at hv; cases hv
      | ub => rw [h4] at hv; cases hv
    | throws e => rw [h3] at hv; cases hv
    | ub => rw [h3] at hv; cases hv

theorem validated_code {m : Member} (h : Validated m) : m.code.valid = true := by
  obtain ⟨code, n, i, ch⟩ := m
  simp only [Validated] at h
  have hv := h.1
  simp only [Member.validate] at hv
  cases h3 : ifNamed n (nameValidate n) with
  | ok u =>
    rw [h3, Res.bind_ok] at hv
    cases h4 : nodeValidate none i code with
    | ok u =>
      unfold nodeValidate at h4
      split at h4
      · cases h4
      · split at h4
        · cases h4
        · rename_i h5
          simpa using h5
    | throws e => rw [h4] at hv; cases hv
    | ub => rw [h4] at hv; cases hv
  | throws e => rw [h3] at hv; cases hv
  | ub => rw [h3] at hv; cases hv

theorem compares : ∀ m m' : Member, Validated m → Validated m' → DistinctNames m → DistinctNames m' → NoUnion m → NoUnion m' →
    count m = count m' → Compares m m' := by
  intro m
  induction m using Member.ind with
  | h m ih =>
    intro m' hv hv' hd hd' hn hn' hcnt
    have hk := distinct_kids hd
    have hk' := distinct_kids hd'
    have ihk : ∀ c ∈ m.children, ∀ c' ∈ m'.children, count c = count c' → Compares c c' := fun c hc c' hc' =>
      ih c hc c' ((validated_kids hv).1 c hc) ((validated_kids hv').1 c' hc') (hk.2 c hc).2 (hk'.2 c' hc').2 ((noUnion_kids hn).2.2 c hc)
        ((noUnion_kids hn').2.2 c' hc')
    by_cases hcode : m.code = m'.code
    · by_cases hs : m.code = .Struct
      · exact struct_compare m m' hd hd' hs (hcode ▸ hs) hcnt ihk
      · have hs' : m'.code ≠ .Struct := hcode ▸ hs
        by_cases ha : m.code = .StructA
        · obtain ⟨code, n, i, ch⟩ := m
          obtain ⟨code', n', i', ch'⟩ := m'
          simp only at hcode ha ihk
          subst hcode
          subst ha
          have e : ∀ (n i : Str) (ch : List Member), flat ⟨.StructA, n, i, ch⟩ = [{ code := .StructA, members := flat ⟨.Struct, [], i, ch⟩ }] := by
            intro n i ch
            rw [flat, if_pos (Or.inl rfl), flat, if_neg (by decide)]
            rfl
          have hd1 : DistinctNames ⟨.Struct, [], i, ch⟩ := by simp only [DistinctNames] at hd ⊢; exact hd
          have hd2 : DistinctNames ⟨.Struct, [], i', ch'⟩ := by simp only [DistinctNames] at hd' ⊢; exact hd'
          have hne : ∀ m : Member, (flat m).isEmpty = false := fun m => by
            rw [← Bool.not_eq_true, List.isEmpty_iff]
            exact flat_ne_nil m
          unfold Compares
          rw [count_other _ (by simp), e, e, nodes_cons, equalNode]
          simp only [hne, Bool.false_eq_true, or_self, if_false, ne_eq, not_true_eq_false, true_or, if_true]
          have ht := type_flat ⟨.Struct, [], i, ch⟩ ⟨.Struct, [], i', ch'⟩ (full_of_distinct _ hd1) (full_of_distinct _ hd2) [] []
          rw [List.append_nil, List.append_nil] at ht
          rw [ht]
          by_cases hcc : count ⟨.Struct, [], i, ch⟩ = count ⟨.Struct, [], i', ch'⟩
          · rw [if_pos hcc]
            obtain ⟨b, h1, h2⟩ := struct_compare ⟨.Struct, [], i, ch⟩ ⟨.Struct, [], i', ch'⟩ hd1 hd2 rfl rfl hcc ihk
            rw [h1, Res.bind_ok, nodes_zero]
            refine ⟨b, by cases b <;> rfl, h2.trans ?_⟩
            simp only [SameShape]
          · rw [if_neg hcc]
            refine ⟨false, rfl, ⟨fun h => (by cases h), fun h => ?_⟩⟩
            refine absurd (same_of ⟨.Struct, [], i, ch⟩ ⟨.Struct, [], i', ch'⟩ ?_).1 hcc
            simp only [SameShape] at h ⊢
            exact h
        · obtain ⟨d, h1, h2, _⟩ := flat_other m hs
          obtain ⟨d', h1', h2', _⟩ := flat_other m' hs'
          have hnu := noUnion_kids hn
          unfold Compares
          rw [count_other m hs, h1, h1', nodes_cons, equalNode, if_neg (by rw [h2, h2', hcode]; simp),
            if_neg (by rw [h2]; exact fun h => h.elim ha hnu.2.1), if_neg (by rw [h2]; exact fun h => h.elim hs hnu.1)]
          refine ⟨true, by rw [Res.bind_ok, nodes_zero]; rfl, ⟨fun _ => ?_, fun _ => rfl⟩⟩
          have hsc : m.code.scalarOf ≠ .Struct ∧ m.code.scalarOf ≠ .Union := by
            have hvc := valid_cases m.code (validated_code hv)
            constructor <;> intro h
            · rcases hvc (Or.inl h) with h | h | h | h
              · exact hs h
              · exact hnu.1 h
              · exact ha h
              · exact hnu.2.1 h
            · rcases hvc (Or.inr h) with h | h | h | h
              · exact hs h
              · exact hnu.1 h
              · exact ha h
              · exact hnu.2.1 h
          rw [sameShape_iff, (validated_kids hv).2 hsc.1 hsc.2, (validated_kids hv').2 (hcode ▸ hsc.1) (hcode ▸ hsc.2)]
          exact ⟨hcode, by simp [SameKids]⟩
    · -- different type codes
      obtain ⟨d, ds, h1, h2⟩ : ∃ d ds, flat m = d :: ds ∧ d.code = m.code := by
        by_cases hs : m.code = .Struct
        · exact ⟨_, _, flat_struct m hs, hs.symm⟩
        · obtain ⟨d, h1, h2, _⟩ := flat_other m hs
          exact ⟨d, [], h1, h2⟩
      obtain ⟨d', ds', h1', h2'⟩ : ∃ d ds, flat m' = d :: ds ∧ d.code = m'.code := by
        by_cases hs : m'.code = .Struct
        · exact ⟨_, _, flat_struct m' hs, hs.symm⟩
        · obtain ⟨d, h1, h2, _⟩ := flat_other m' hs
          exact ⟨d, [], h1, h2⟩
      have hp := count_pos m
      unfold Compares
      rw [h1, h1', show count m = (count m - 1) + 1 by omega, nodes_cons, equalNode, if_pos (by rw [h2, h2']; exact hcode)]
      exact ⟨false, rfl, ⟨fun h => (by cases h), fun h => absurd ((sameShape_iff m m').mp h).1 hcode⟩⟩

/-! ### the same shape, with Unions -/

theorem nodes_same : ∀ m m' : Member, DistinctNames m → DistinctNames m' → SameShape m m' → equalNodes (count m) (flat m) (flat m') = .ok true := by
  intro m
  induction m using Member.ind with
  | h m ih =>
    intro m' hd hd' hsame
    have hk := distinct_kids hd
    have hk' := distinct_kids hd'
    obtain ⟨hcode, hkids⟩ := (sameShape_iff m m').mp hsame
    -- the nodes of the members
    have kids : ∀ ms ms', (∀ c ∈ ms, c ∈ m.children) → (∀ c ∈ ms', c ∈ m'.children) → SameKids ms ms' → ∀ off off',
        equalNodes (countKids ms) (flatKids true off ms) (flatKids true off' ms') = .ok true := by
      intro ms
      induction ms with
      | nil => intro ms' _ _ _ off off'; rw [countKids, nodes_zero]
      | cons a ms ih2 =>
        intro ms' h1 h2 hs off off'
        obtain ⟨a', more, rfl, _, hsa, hsk⟩ := (sameKids_cons a ms ms').mp hs
        have ha := h1 a (by simp)
        have ha' := h2 a' (by simp)
        simp only [countKids, flatKids, if_true]
        rw [nodes_append (count a) _ _ _ _ _ (by rw [setParent_length, flat_length]) (by rw [setParent_length, flat_length, (same_of a a' hsa).1]),
          nodes_setParent, ih a ha a' (hk.2 a ha).2 (hk'.2 a' ha').2 hsa, Res.bind_ok, if_pos rfl]
        exact ih2 more (fun c hc => h1 c (List.mem_cons_of_mem _ hc)) (fun c hc => h2 c (List.mem_cons_of_mem _ hc)) hsk _ _
    have asStruct : ∀ i i' : Str, equalNodes (count ⟨.Struct, [], i, m.children⟩) (flat ⟨.Struct, [], i, m.children⟩) (flat ⟨.Struct, [], i', m'.children⟩) = .ok true := by
      intro i i'
      have hlk : lookOf ⟨.Struct, [], i, m.children⟩ = lookOf ⟨.Struct, [], i', m'.children⟩ := by
        simp only [lookOf, (sameKids_iter _ _ hkids).2.2]
      rw [flat_struct _ rfl, flat_struct _ rfl, count_struct _ rfl, Nat.add_comm 1, nodes_cons, equalNode]
      simp only [structRoot]
      rw [if_neg (by simp), if_neg (by decide), if_pos (by decide), show (TypeCode.Struct == TypeCode.Union) = false by decide,
        lookup_struct [] [] _ _ (congrArg List.length hlk), decide_eq_true hlk, Res.bind_ok, if_pos rfl]
      exact kids _ _ (fun _ h => h) (fun _ h => h) hkids 1 1
    -- the choices of a Union
    have choices : ∀ (l : SMap Nat), (∀ p ∈ l, p ∈ kidIter 0 m.children) →
        equalLookup true (flatKids false 1 m.children) (flatKids false 1 m'.children) l l = .ok true := by
      intro l
      induction l with
      | nil => intro _; rw [equalLookup]
      | cons p l ih2 =>
        intro hl
        obtain ⟨n, o⟩ := p
        have hp := hl (n, o) (by simp)
        have hp' := hp
        rw [(sameKids_iter _ _ hkids).2.1 0] at hp'
        obtain ⟨a, ha, _⟩ := mem_kidIter.mp hp
        obtain ⟨c, hc, hcn⟩ := mem_kidIter.mp hp
        obtain ⟨c', hc', hcn'⟩ := mem_kidIter.mp hp'
        have hcs : SameShape c c' := by
          obtain ⟨pre, post, e, ho⟩ := hc
          obtain ⟨pre', post', e', ho'⟩ := hc'
          have : ∀ (pre pre' post post' : List Member), SameKids (pre ++ c :: post) (pre' ++ c' :: post') → countKids pre = countKids pre' → SameShape c c' := by
            intro pre
            induction pre with
            | nil =>
              intro pre' post post' h1 h2
              cases pre' with
              | nil =>
                obtain ⟨m1, m2, e, _, h3, _⟩ := (sameKids_cons _ _ _).mp h1
                injection e with e _
                subst e
                exact h3
              | cons b pre' =>
                have := count_pos b
                simp only [countKids] at h2
                omega
            | cons b pre ih3 =>
              intro pre' post post' h1 h2
              obtain ⟨m1, m2, e, _, h3, h4⟩ := (sameKids_cons _ _ _).mp h1
              cases pre' with
              | nil =>
                have := count_pos b
                simp only [countKids] at h2
                omega
              | cons b' pre' =>
                injection e with e1 e2
                subst e1
                have := (same_of b b' h3).1
                simp only [countKids] at h2
                rw [← e2] at h4
                exact ih3 pre' post post' h4 (by omega)
          refine this pre pre' post post' ?_ (by omega)
          rw [← e, ← e']
          exact hkids
        -- where the choice is
        have drop_of : ∀ (ms : List Member) (c : Member), KidAt 0 ms o c → ∃ q, (flatKids false 1 ms).drop o = flat c ++ q ∧ o < (flatKids false 1 ms).length := by
          intro ms c hc
          obtain ⟨pre, post, e, ho⟩ := hc
          refine ⟨flatKids false (1 + countKids pre + count c) post, ?_, ?_⟩
          · rw [e, flatKids_append, List.drop_append, List.drop_eq_nil_of_le (by rw [flatKids_length]; omega), flatKids_length,
              show o - countKids pre = 0 by omega, List.drop_zero, flatKids]
            simp
          · have := count_pos c
            rw [e, flatKids_length, countKids_append, countKids]
            omega
        obtain ⟨q, hq, hlt⟩ := drop_of m.children c hc
        obtain ⟨q', hq', hlt'⟩ := drop_of m'.children c' hc'
        have hkc := hk.2 c hc.mem
        have hkc' := hk'.2 c' hc'.mem
        rw [equalLookup]
        rw [if_neg (by simp), if_neg (by simp), if_pos rfl, if_neg (by omega), hq, hq',
          type_flat c c' (full_of_distinct c hkc.2) (full_of_distinct c' hkc'.2), if_pos (same_of c c' hcs).1, ih c hc.mem c' hkc.2 hkc'.2 hcs, Res.bind_ok, if_pos rfl]
        exact ih2 fun p hp => hl p (List.mem_cons_of_mem _ hp)
    obtain ⟨code, n, i, ch⟩ := m
    obtain ⟨code', n', i', ch'⟩ := m'
    simp only at hcode hkids asStruct choices hk hk'
    subst hcode
    have hne : ∀ m : Member, (flat m).isEmpty = false := fun m => by
      rw [← Bool.not_eq_true, List.isEmpty_iff]
      exact flat_ne_nil m
    have unionLook : equalLookup true (flatKids false 1 ch) (flatKids false 1 ch') (lookKids false [] 0 ch) (lookKids false [] 0 ch') = .ok true := by
      rw [← (sameKids_iter _ _ hkids).2.2]
      refine choices _ fun p hp => ?_
      rw [lookKids_other, SMap.mem_insertAll SMap.sorted_nil (by rw [kidIter_names]; exact hk.1) (by simp [SMap.keys])] at hp
      simpa using hp
    have asUnion : ∀ i i' : Str, equalNodes 1 (assemble .Union i ch (flatKids false 1 ch)) (assemble .Union i' ch' (flatKids false 1 ch')) = .ok true := by
      intro i i'
      simp only [assemble]
      rw [if_neg (by decide), if_neg (by decide), nodes_cons, equalNode]
      simp only [ne_eq, not_true_eq_false, if_false]
      rw [if_neg (by decide), if_pos (by decide), show (TypeCode.Union == TypeCode.Union) = true by decide]
      rw [unionLook, Res.bind_ok, nodes_zero]
      rfl
    by_cases h1 : code = .Struct
    · subst h1
      have := asStruct i i'
      rw [count_struct _ rfl] at this ⊢
      rw [flat_struct _ rfl, flat_struct _ rfl] at this ⊢
      exact this
    · rw [count_other _ h1]
      by_cases h2 : code = .StructA
      · subst h2
        have e : ∀ (n i : Str) (ch : List Member), flat ⟨.StructA, n, i, ch⟩ = [{ code := .StructA, members := flat ⟨.Struct, [], i, ch⟩ }] := by
          intro n i ch
          rw [flat, if_pos (Or.inl rfl), flat, if_neg (by decide)]
          rfl
        have hd1 : DistinctNames ⟨.Struct, [], i, ch⟩ := by simp only [DistinctNames] at hd ⊢; exact hd
        have hd2 : DistinctNames ⟨.Struct, [], i', ch'⟩ := by simp only [DistinctNames] at hd' ⊢; exact hd'
        have ht := type_flat ⟨.Struct, [], i, ch⟩ ⟨.Struct, [], i', ch'⟩ (full_of_distinct _ hd1) (full_of_distinct _ hd2) [] []
        rw [List.append_nil, List.append_nil, if_pos (by simp only [count, if_true, (sameKids_iter _ _ hkids).1]), asStruct] at ht
        rw [e, e, nodes_cons, equalNode]
        simp only [hne, Bool.false_eq_true, or_self, if_false, ne_eq, not_true_eq_false, true_or, if_true]
        rw [ht, Res.bind_ok, nodes_zero]
        rfl
      · by_cases h3 : code = .UnionA
        · subst h3
          have e : ∀ (n i : Str) (ch : List Member), flat ⟨.UnionA, n, i, ch⟩ = [{ code := .UnionA, members := assemble .Union i ch (flatKids false 1 ch) }] := by
            intro n i ch
            rw [flat, if_pos (Or.inr rfl)]
            rfl
          have hu : ∀ (i : Str) (ch : List Member), assemble .Union i ch (flatKids false 1 ch) = flat ⟨.Union, [], i, ch⟩ := by
            intro i ch
            rw [flat, if_neg (by decide)]
            rfl
          have hd1 : DistinctNames ⟨.Union, [], i, ch⟩ := by simp only [DistinctNames] at hd ⊢; exact hd
          have hd2 : DistinctNames ⟨.Union, [], i', ch'⟩ := by simp only [DistinctNames] at hd' ⊢; exact hd'
          have ht := type_flat ⟨.Union, [], i, ch⟩ ⟨.Union, [], i', ch'⟩ (full_of_distinct _ hd1) (full_of_distinct _ hd2) [] []
          rw [List.append_nil, List.append_nil, if_pos (by rw [count_other _ (by simp), count_other _ (by simp)]), count_other _ (by simp), ← hu, ← hu, asUnion] at ht
          rw [e, e, nodes_cons, equalNode]
          simp only [ne_eq, not_true_eq_false, if_false, or_true, if_true]
          rw [hu, hu] at ht ⊢
          simp only [hne, Bool.false_eq_true, or_self, if_false]
          rw [ht, Res.bind_ok, nodes_zero]
          rfl
        · by_cases h4 : code = .Union
          · subst h4
            have := asUnion i i'
            rw [flat, if_neg (by decide), flat, if_neg (by decide)]
            exact this
          · obtain ⟨d, e1, e2, _⟩ := flat_other ⟨code, n, i, ch⟩ h1
            obtain ⟨d', e1', e2', _⟩ := flat_other ⟨code, n', i', ch'⟩ h1
            rw [e1, e1', nodes_cons, equalNode, if_neg (by rw [e2, e2']; simp), if_neg (by rw [e2]; exact fun h => h.elim h2 h3),
              if_neg (by rw [e2]; exact fun h => h.elim h1 h4), Res.bind_ok, nodes_zero]
            rfl

/-! ### C57 -/

/-- equalType() on types which a program has defined: true for types with the same structure, and, without Unions, only for those; nothing is
read outside of the tables.  Missing: Unions, for which the code is wrong (`C57_union_choices`), and types from a peer with odd names. -/
theorem C57_partial (m m' : Member) (t t' : List FieldDesc) (hv : Validated m) (hv' : Validated m') (hd : DistinctNames m) (hd' : DistinctNames m')
    (ht : build m = .ok t) (ht' : build m' = .ok t') :
    (SameShape m m' → equalType t t' = .ok true) ∧
    (NoUnion m → NoUnion m' → (SameShape m m' → equalType t t' = .ok true) ∧ (¬ SameShape m m' → equalType t t' = .ok false)) := by
  rw [build_total m hv hd] at ht
  rw [build_total m' hv' hd'] at ht'
  injection ht with ht
  injection ht' with ht'
  subst ht ht'
  have hty := type_flat m m' (full_of_distinct m hd) (full_of_distinct m' hd') [] []
  rw [List.append_nil, List.append_nil] at hty
  have h1 : SameShape m m' → equalType (flat m) (flat m') = .ok true := by
    intro hs
    rw [hty, if_pos (same_of m m' hs).1]
    exact nodes_same m m' hd hd' hs
  refine ⟨h1, fun hn hn' => ⟨h1, fun hs => ?_⟩⟩
  rw [hty]
  split
  · rename_i hcnt
    obtain ⟨b, h2, h3⟩ := compares m m' hv hv' hd hd' hn hn' hcnt
    rw [h2]
    cases b with
    | false => rfl
    | true => exact absurd (h3.mp rfl) hs
  · rfl

/-- In particular it is symmetric, without Unions. -/
theorem C57_symmetric_partial (m m' : Member) (t t' : List FieldDesc) (hv : Validated m) (hv' : Validated m') (hd : DistinctNames m) (hd' : DistinctNames m')
    (ht : build m = .ok t) (ht' : build m' = .ok t') (hn : NoUnion m) (hn' : NoUnion m') : equalType t t' = equalType t' t := by
  have symm : ∀ a b : Member, SameShape a b → SameShape b a := by
    intro a
    induction a using Member.ind with
    | h a ih =>
      intro b h
      obtain ⟨h1, h2⟩ := (sameShape_iff a b).mp h
      have kids : ∀ ms ms', (∀ c ∈ ms, c ∈ a.children) → SameKids ms ms' → SameKids ms' ms := by
        intro ms
        induction ms with
        | nil => intro ms' _ h; rw [(sameKids_nil ms').mp h]; simp [SameKids]
        | cons c ms ih2 =>
          intro ms' hm h
          obtain ⟨c', more, rfl, hn, hs, hk⟩ := (sameKids_cons c ms ms').mp h
          exact (sameKids_cons _ _ _).mpr ⟨c, ms, rfl, hn.symm, ih c (hm c (by simp)) c' hs, ih2 more (fun c hc => hm c (List.mem_cons_of_mem _ hc)) hk⟩
      exact (sameShape_iff b a).mpr ⟨h1.symm, kids _ _ (fun _ h => h) h2⟩
  have h1 := (C57_partial m m' t t' hv hv' hd hd' ht ht').2 hn hn'
  have h2 := (C57_partial m' m t' t hv' hv hd' hd ht' ht).2 hn' hn
  by_cases hs : SameShape m m'
  · rw [h1.1 hs, h2.1 (symm _ _ hs)]
  · rw [h1.2 hs, h2.2 fun h => hs (symm _ _ h)]

/-- struct { int32 a; struct[] { string s; } b; }, with an id, and with the members the other way around -/
def pairA : Member := { code := .Struct, id := [0x53], children := [{ code := .Int32, name := [0x61] },
  { code := .StructA, name := [0x62], children := [{ code := .String, name := [0x73] }] }] }
def pairB : Member := { code := .Struct, children := [{ code := .Int32, name := [0x61] },
  { code := .StructA, name := [0x62], id := [0x54], children := [{ code := .String, name := [0x73] }] }] }
def pairC : Member := { code := .Struct, children := [{ code := .StructA, name := [0x62], children := [{ code := .String, name := [0x73] }] },
  { code := .Int32, name := [0x61] }] }

theorem pair_ok : ∀ m ∈ [pairA, pairB, pairC], Validated m ∧ DistinctNames m ∧ NoUnion m := by
  intro m hm
  simp only [List.mem_cons, List.not_mem_nil, or_false] at hm
  rcases hm with rfl | rfl | rfl <;>
    simp [pairA, pairB, pairC, Validated, ValidatedAll, DistinctNames, DistinctNamesAll, NoUnion, NoUnions] <;> decide

theorem pair_shape : SameShape pairA pairB ∧ ¬ SameShape pairA pairC := by
  constructor
  · simp only [pairA, pairB, SameShape, SameKids]
    exact ⟨trivial, _, _, rfl, rfl, ⟨rfl, rfl⟩, _, _, rfl, rfl, ⟨rfl, _, _, rfl, rfl, ⟨rfl, rfl⟩, rfl⟩, rfl⟩
  · simp [pairA, pairC, SameShape, SameKids]

example : equalType (flat pairA) (flat pairB) = .ok true ∧ equalType (flat pairA) (flat pairC) = .ok false := by
  have hA := pair_ok pairA (by simp)
  have hB := pair_ok pairB (by simp)
  have hC := pair_ok pairC (by simp)
  exact ⟨(C57_partial pairA pairB _ _ hA.1 hB.1 hA.2.1 hB.2.1 (build_total _ hA.1 hA.2.1) (build_total _ hB.1 hB.2.1)).1 pair_shape.1,
    ((C57_partial pairA pairC _ _ hA.1 hC.1 hA.2.1 hC.2.1 (build_total _ hA.1 hA.2.1) (build_total _ hC.1 hC.2.1)).2 hA.2.2 hC.2.2).2 pair_shape.2⟩

end Pvxs.Props.Same
