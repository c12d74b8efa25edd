import Verif.Spec.Memory
import Verif.Lemmas.TypeTable
import Verif.Lemmas.Value
/-
Sizes of types and values, and the bytes they are read from.
-/
namespace Pvxs.Lemmas.Memory
open Pvxs Pvxs.Wire Pvxs.Spec Pvxs.Spec.Memory

theorem nodesIn_eq (d : FieldDesc) : nodesIn d = 1 + nodes d.members := by
  cases d; rfl

theorem nodes_append (a b : List FieldDesc) : nodes (a ++ b) = nodes a + nodes b := by
  induction a with
  | nil => simp [nodes]
  | cons d a ih => simp only [List.cons_append, nodes, ih]; omega

theorem length_le_nodes (t : List FieldDesc) : t.length ≤ nodes t := by
  induction t with
  | nil => simp [nodes]
  | cons d t ih => simp only [List.length_cons, nodes, nodesIn_eq]; omega

theorem rest_le {d : Dec α} (g : Good d) (i : In) : (d i).2.rest.length ≤ i.rest.length := (g.suffix i).length_le

/-! ### what is kept only grows -/

theorem emplace_prefix (c : TypeStore) (k : Nat) (t : List FieldDesc) : c <+: c.emplace k t := by
  unfold TypeStore.emplace
  split
  · exact List.prefix_refl c
  · exact List.prefix_append c _

theorem back {a b c : TypeStore} (h1 : a <+: b) (h2 : b <+: c) (h : c = a) : b = a :=
  (h1.eq_of_length (Nat.le_antisymm h1.length_le (by rw [← h]; exact h2.length_le))).symm

/-- what is shown of a decoder of types: it adds to what is kept, and if it does not then what it gives is paid by the bytes read -/
structure Frugal (B : Nat) (rec : TypeStore → Dec (List FieldDesc × TypeStore)) : Prop where
  good : ∀ c, Good (rec c)
  grows : ∀ c i, c <+: (rec c i).1.2
  pays : ∀ c i, (rec c i).1.2 = c → KeptBelow B c → nodes (rec c i).1.1 + B * (rec c i).2.rest.length ≤ B * i.rest.length

theorem wireKid_nodes (fld : FieldDesc) (kids : List FieldDesc) (name : Str) (sub : List FieldDesc) :
    nodes (wireKid fld kids name sub).2 = nodes kids + nodes sub ∧ (wireKid fld kids name sub).1.members = fld.members ∧
    (wireKid fld kids name sub).1.code = fld.code := by
  cases sub with
  | nil => simp [wireKid, nodes]
  | cons d more =>
    simp only [wireKid]
    refine ⟨?_, trivial, trivial⟩
    rw [nodes_append]
    simp only [nodes, nodesIn_eq]
    split <;> rfl

theorem mul_sub_step {B a b c x : Nat} (h1 : x + B * b ≤ B * a) (h2 : c ≤ b) : x + B * c ≤ B * a :=
  Nat.le_trans (Nat.add_le_add_left (Nat.mul_le_mul_left B h2) x) h1

theorem kids_frugal {B : Nat} {rec : TypeStore → Dec (List FieldDesc × TypeStore)} (H : Frugal B rec) (n : Nat) :
    ∀ (fld : FieldDesc) (kids : List FieldDesc) (c : TypeStore) (i : In),
      c <+: (getKids rec n fld kids c i).1.2 ∧
      (getKids rec n fld kids c i).1.1.1.members = fld.members ∧ (getKids rec n fld kids c i).1.1.1.code = fld.code ∧
      ((getKids rec n fld kids c i).1.2 = c → KeptBelow B c →
        nodes (getKids rec n fld kids c i).1.1.2 + B * (getKids rec n fld kids c i).2.rest.length ≤ nodes kids + B * i.rest.length) := by
  induction n with
  | zero => intro fld kids c i; exact ⟨List.prefix_refl c, rfl, rfl, fun _ _ => Nat.le_refl _⟩
  | succ n ih =>
    intro fld kids c i
    simp only [getKids, Dec.bind_apply, failIf]
    generalize hs : getStr i = si
    have hsl : si.2.rest.length ≤ i.rest.length := by rw [← hs]; exact rest_le good_getStr i
    generalize hr : rec c si.2 = ri
    have hg := H.grows c si.2
    have hp := H.pays c si.2
    have hl := rest_le (H.good c) si.2
    rw [hr] at hg hp hl
    split
    · refine ⟨hg, rfl, rfl, ?_⟩
      intro h hk
      have := hp h hk
      simp only [In.fault]
      have h1 : B * ri.2.rest.length ≤ B * i.rest.length := Nat.mul_le_mul_left B (Nat.le_trans hl hsl)
      omega
    · obtain ⟨w1, w2, w3⟩ := wireKid_nodes fld kids si.1 ri.1.1
      obtain ⟨i1, i2, i3, i4⟩ := ih (wireKid fld kids si.1 ri.1.1).1 (wireKid fld kids si.1 ri.1.1).2 ri.1.2 ri.2
      refine ⟨hg.trans i1, i2.trans w2, i3.trans w3, ?_⟩
      intro h hk
      have e : ri.1.2 = c := back hg i1 h
      have h1 := i4 (h.trans e.symm) (e ▸ hk)
      have h2 := hp e hk
      rw [w1] at h1
      have h3 : B * si.2.rest.length ≤ B * i.rest.length := Nat.mul_le_mul_left B hsl
      omega

theorem body_frugal {B : Nat} (hB : 1 ≤ B) {rec : TypeStore → Dec (List FieldDesc × TypeStore)} (H : Frugal B rec) (c : TypeStore) (code : Byte) (i : In) :
    c <+: (getTypeBody rec c code i).1.2 ∧
    ((getTypeBody rec c code i).1.2 = c → KeptBelow B c →
      nodes (getTypeBody rec c code i).1.1 + B * (getTypeBody rec c code i).2.rest.length ≤ B + B * i.rest.length) := by
  unfold getTypeBody
  split
  · exact ⟨List.prefix_refl c, fun _ _ => by simp [nodes]⟩
  split
  · -- define
    simp only [getTypeDefine, Dec.bind_apply, failIf]
    generalize hs : getInt 2 i = si
    have hsl : si.2.rest.length ≤ i.rest.length := by rw [← hs]; exact rest_le (good_getInt 2) i
    generalize hr : rec c si.2 = ri
    have hg := H.grows c si.2
    have hp := H.pays c si.2
    rw [hr] at hg hp
    have h3 : B * si.2.rest.length ≤ B * i.rest.length := Nat.mul_le_mul_left B hsl
    split
    · refine ⟨hg, fun h hk => ?_⟩
      have := hp h hk
      simp only [In.fault]; omega
    · cases heq : ri.1.1 with
      | nil =>
        refine ⟨hg, fun h hk => ?_⟩
        have := hp h hk
        simp only [Dec.pure_apply]; omega
      | cons d more =>
        refine ⟨hg.trans (emplace_prefix _ _ _), fun h hk => ?_⟩
        simp only [Dec.pure_apply] at h ⊢
        have e := back hg (emplace_prefix ri.1.2 si.1 ri.1.1) (by rw [heq]; exact h)
        have := hp e hk
        rw [heq] at this
        simp only [nodes, nodesIn_eq] at this ⊢
        omega
  split
  · -- fetch
    simp only [getTypeFetch, Dec.bind_apply]
    generalize hs : getInt 2 i = si
    have hsl : si.2.rest.length ≤ i.rest.length := by rw [← hs]; exact rest_le (good_getInt 2) i
    have h3 : B * si.2.rest.length ≤ B * i.rest.length := Nat.mul_le_mul_left B hsl
    cases ht : c.find? si.1 with
    | none =>
      refine ⟨List.prefix_refl c, fun _ _ => ?_⟩
      simp only [failWith, nodes, In.fault]; omega
    | some t =>
      simp only [failIf]
      split
      · refine ⟨List.prefix_refl c, fun _ _ => ?_⟩
        simp only [nodes, In.fault]; omega
      · refine ⟨List.prefix_refl c, fun _ hk => ?_⟩
        have := hk _ _ ht
        simp only [Dec.pure_apply]; omega
  split
  · exact ⟨List.prefix_refl c, fun _ _ => by simp [nodes, failWith, In.fault]⟩
  split
  · -- arrays
    simp only [getTypeArr, Dec.bind_apply, failIf]
    generalize hr : rec c i = ri
    have hg := H.grows c i
    have hp := H.pays c i
    rw [hr] at hg hp
    split
    · refine ⟨hg, fun h hk => ?_⟩
      have := hp h hk
      simp only [In.fault, nodes, nodesIn_eq]; omega
    · refine ⟨hg, fun h hk => ?_⟩
      have := hp h hk
      simp only [Dec.pure_apply, nodes, nodesIn_eq]; omega
  split
  · -- structs and unions
    simp only [getTypeCompound, Dec.bind_apply]
    generalize hs : getStr i = si
    have hsl : si.2.rest.length ≤ i.rest.length := by rw [← hs]; exact rest_le good_getStr i
    generalize hz : getSize false si.2 = zi
    have hzl : zi.2.rest.length ≤ si.2.rest.length := by rw [← hz]; exact rest_le (good_getSize false) si.2
    obtain ⟨i1, i2, i3, i4⟩ := kids_frugal H zi.1 { code := ⟨code⟩, id := si.1 } [] c zi.2
    generalize getKids rec zi.1 { code := ⟨code⟩, id := si.1 } [] c zi.2 = ki at i1 i2 i3 i4 ⊢
    refine ⟨i1, fun h hk => ?_⟩
    have h1 := i4 h hk
    have h3 : B * zi.2.rest.length ≤ B * i.rest.length := Nat.mul_le_mul_left B (Nat.le_trans hzl hsl)
    simp only [Dec.pure_apply, withKids]
    simp only [nodes] at h1
    split
    · simp only [nodes, nodesIn_eq, i2]; omega
    · simp only [nodes, nodesIn_eq]; omega
  split
  · exact ⟨List.prefix_refl c, fun _ _ => by simp only [Dec.pure_apply, nodes, nodesIn_eq]; omega⟩
  · exact ⟨List.prefix_refl c, fun _ _ => by simp only [failWith, In.fault, nodes, nodesIn_eq]; omega⟩

theorem getU8_rest (i : In) (h : (getU8 i).2.err = false) : i.rest.length = (getU8 i).2.rest.length + 1 := by
  revert h
  unfold getU8
  split
  · intro h; simp [In.fault] at h
  · split
    · intro h; simp [In.fault] at h
    · rename_i b r hr; intro _; simp [hr]

theorem type_frugal {B : Nat} (hB : 1 ≤ B) (f : Nat) : Frugal B (getType f) := by
  induction f with
  | zero =>
    exact ⟨good_getType 0, fun c i => List.prefix_refl c, fun c i _ _ => by simp [getType, failWith, nodes, In.fault]⟩
  | succ f ih =>
    refine ⟨good_getType (f + 1), ?_, ?_⟩
    · intro c i
      simp only [getType, failIf]
      split
      · exact List.prefix_refl c
      · simp only [Dec.bind_apply, failIf]
        split
        · exact List.prefix_refl c
        · exact (body_frugal hB ih c _ _).1
    · intro c i
      simp only [getType, failIf]
      split
      · intro _ _; simp [nodes, In.fault]
      · simp only [Dec.bind_apply, failIf]
        split
        · intro _ _
          have := Nat.mul_le_mul_left B (rest_le good_getU8 i)
          simpa [nodes, In.fault] using this
        · rename_i he
          intro h hk
          have h1 := (body_frugal hB ih c (getU8 i).1 (getU8 i).2).2 h hk
          have h2 := getU8_rest i (by simpa using he)
          rw [h2, Nat.mul_add, Nat.mul_one]
          omega

/-! ### types which refer to each other -/

/-- the other members, each of the type kept under key `k` -/
def refs (be : Bool) (k : Nat) : List Str → List Byte
  | [] => []
  | n :: ns => strBytes be n ++ (0xfe :: wireBytes be 2 k) ++ refs be k ns

/-- `l` levels: a structure whose first member is the type one level below, given a key, and whose other members refer to that -/
def tower (be : Bool) (names : List Str) : Nat → List Byte
  | 0 => [0x00]
  | l + 1 => 0x80 :: (strBytes be [] ++ (sizeBytes be (names.length + 1) ++
      (strBytes be [0x61] ++ ((0xfd :: (wireBytes be 2 l ++ tower be names l)) ++ refs be l names))))

/-- how many nodes it has -/
def heapOf (m : Nat) : Nat → Nat
  | 0 => 1
  | l + 1 => 1 + (m + 1) * heapOf m l

theorem parses_fetch (be : Bool) (f k : Nat) (hk : k < 65536) (c : TypeStore) (t : List FieldDesc) (ht : t ≠ []) (h : c.find? k = some t) :
    Parses be (getType (f + 1) c) (0xfe :: wireBytes be 2 k) (t, c) := by
  have key : Parses be (getTypeBody (getType f) c 0xfe) (wireBytes be 2 k) (t, c) := by
    show Parses be (getTypeFetch c) _ _
    unfold getTypeFetch
    refine Parses.bind0 (parses_getInt be 2 k hk) ?_
    simp only [h]
    exact parses_failIf _ _ (by simpa using ht) (Parses.pure be _)
  exact parses_code key

theorem wireKid_length (fld : FieldDesc) (kids : List FieldDesc) (name : Str) (sub : List FieldDesc) :
    (wireKid fld kids name sub).2.length = kids.length + sub.length := by
  cases sub with
  | nil => simp [wireKid]
  | cons d more => simp [wireKid]

theorem parses_refs (be : Bool) (f k : Nat) (hk : k < 65536) (c : TypeStore) (t : List FieldDesc) (ht : t ≠ []) (h : c.find? k = some t) (names : List Str)
    (hn : ∀ n ∈ names, n.length ≤ 0xffffffff) : ∀ (fld : FieldDesc) (kids : List FieldDesc), ∃ fld' kids',
      Parses be (getKids (getType (f + 1)) names.length fld kids c) (refs be k names) ((fld', kids'), c) ∧ fld'.code = fld.code ∧
      kids'.length = kids.length + names.length * t.length := by
  induction names with
  | nil => intro fld kids; exact ⟨fld, kids, Parses.pure be _, rfl, by simp⟩
  | cons n ns ih =>
    intro fld kids
    obtain ⟨fld', kids', h1, h2, h3⟩ := ih (fun m hm => hn m (by simp [hm])) (wireKid fld kids n t).1 (wireKid fld kids n t).2
    refine ⟨fld', kids', ?_, h2.trans (wireKid_nodes fld kids n t).2.2, ?_⟩
    · have P : Parses be (getKids (getType (f + 1)) (ns.length + 1) fld kids c)
          (strBytes be n ++ ((0xfe :: wireBytes be 2 k) ++ refs be k ns)) ((fld', kids'), c) :=
        Parses.bind (parses_getStr be n (hn n (by simp))) (Parses.bind (parses_fetch be f k hk c t ht h)
          (parses_failIf ((fld, kids), c) t.isEmpty (by simpa using ht) h1))
      simpa [refs, List.append_assoc] using P
    · rw [h3, wireKid_length]
      simp only [List.length_cons, Nat.add_mul, Nat.one_mul]; omega

theorem parses_tower (be : Bool) (names : List Str) (hn : ∀ n ∈ names, n.length ≤ 0xffffffff) (hm : names.length < 0xffffffff) (l : Nat) (hl : l ≤ 65536) :
    ∀ (f : Nat) (c : TypeStore), 2 * l + 1 ≤ f → (∀ k, k < l → c.find? k = none) →
      ∃ t c', Parses be (getType f c) (tower be names l) (t, c') ∧ t.length = heapOf names.length l ∧ ∀ k, l ≤ k → c'.find? k = c.find? k := by
  induction l with
  | zero =>
    intro f c hf hc
    obtain ⟨g, rfl⟩ : ∃ g, f = g + 1 := ⟨f - 1, by omega⟩
    refine ⟨[{ code := ⟨0⟩ }], c, ?_, rfl, fun _ _ => rfl⟩
    refine parses_code (code := 0x00) ?_
    have : getTypeBody (getType g) c 0x00 = pure ([{ code := ⟨0⟩ }], c) := by
      unfold getTypeBody
      rw [if_neg (by decide), if_neg (by decide), if_neg (by decide), if_neg (by decide), if_neg (by decide), if_neg (by decide), if_pos (by decide)]
    rw [this]
    exact Parses.pure be _
  | succ l ih =>
    intro f c hf hc
    obtain ⟨g, rfl⟩ : ∃ g, f = g + 3 := ⟨f - 3, by omega⟩
    obtain ⟨t, c1, p1, p2, p3⟩ := ih (by omega) (g + 1) c (by omega) (fun k hk => hc k (by omega))
    have ht : t ≠ [] := by
      intro h; rw [h] at p2
      cases l with
      | zero => simp [heapOf] at p2
      | succ l => simp only [heapOf, List.length_nil] at p2; omega
    obtain ⟨d, ds, htd⟩ : ∃ d ds, t = d :: ds := by
      cases t with
      | nil => exact absurd rfl ht
      | cons d ds => exact ⟨d, ds, rfl⟩
    have hfree : c1.find? l = none := by rw [p3 l (Nat.le_refl l)]; exact hc l (by omega)
    -- the definition
    have P1 : Parses be (getType (g + 2) c) (0xfd :: (wireBytes be 2 l ++ tower be names l))
        ({ d with parentIndex := 0 } :: ds, c1.emplace l t) := by
      refine parses_code (code := 0xfd) ?_
      show Parses be (getTypeDefine (getType (g + 1)) c) _ _
      unfold getTypeDefine
      refine Parses.bind (parses_getInt be 2 l (by omega)) (Parses.bind0 p1 (parses_failIf _ _ (by simpa using ht) ?_))
      simp only [htd]
      exact Parses.pure be _
    have hfind : (c1.emplace l t).find? l = some t := by rw [find?_emplace, hfree]; simp
    let fld : FieldDesc := { code := ⟨0x80⟩, id := [] }
    obtain ⟨fld', kids', r1, r2, r3⟩ := parses_refs be (g + 1) l (by omega) (c1.emplace l t) t ht hfind names hn
      (wireKid fld [] [0x61] ({ d with parentIndex := 0 } :: ds)).1 (wireKid fld [] [0x61] ({ d with parentIndex := 0 } :: ds)).2
    refine ⟨fld' :: kids', c1.emplace l t, ?_, ?_, ?_⟩
    · refine parses_code (code := 0x80) ?_
      show Parses be (getTypeCompound (getType (g + 2)) ⟨0x80⟩ c) _ _
      unfold getTypeCompound
      refine Parses.bind (parses_getStr be [] (by simp)) (Parses.bind (parses_getSize be false _ (by omega)) ?_)
      have K : Parses be (getKids (getType (g + 2)) (names.length + 1) fld [] c)
          (strBytes be [0x61] ++ ((0xfd :: (wireBytes be 2 l ++ tower be names l)) ++ refs be l names)) ((fld', kids'), c1.emplace l t) :=
        Parses.bind (parses_getStr be [0x61] (by simp)) (Parses.bind P1 (parses_failIf ((fld, []), c1.emplace l t) _ (by simp) r1))
      have e : withKids fld' kids' = fld' :: kids' := by
        have : fld'.code = .Struct := by rw [r2, (wireKid_nodes _ _ _ _).2.2]
        simp [withKids, this]
      have := Parses.map K (fun r => (withKids r.1.1 r.1.2, r.2))
      simp only [e] at this
      exact this
    · rw [List.length_cons, r3, wireKid_length]
      have : ({ d with parentIndex := 0 } :: ds : List FieldDesc).length = t.length := by rw [htd]; rfl
      rw [this, p2, heapOf, Nat.add_mul, List.length_nil, Nat.one_mul]; omega
    · intro k hk
      rw [find?_emplace, p3 k (by omega)]
      cases hck : c.find? k with
      | some x => rfl
      | none => simp; omega

theorem heap_big (m l : Nat) : (m + 1) ^ l ≤ heapOf m l := by
  induction l with
  | zero => simp [heapOf]
  | succ l ih =>
    rw [heapOf, Nat.pow_succ, Nat.mul_comm]
    have := Nat.mul_le_mul_left (m + 1) ih
    omega

theorem sizeBytes_le (be : Bool) (n : Nat) : (sizeBytes be n).length ≤ 5 := by
  unfold sizeBytes
  split
  · simp
  · simp [wireBytes_length]

theorem refs_length (be : Bool) (k L : Nat) (names : List Str) (h : ∀ n ∈ names, n.length ≤ L) : (refs be k names).length ≤ names.length * (L + 8) := by
  induction names with
  | nil => simp [refs]
  | cons n ns ih =>
    have h1 := ih fun m hm => h m (by simp [hm])
    have h2 := h n (by simp)
    have h3 := sizeBytes_le be n.length
    simp only [refs, strBytes, List.length_append, List.length_cons, wireBytes_length, Nat.add_mul, Nat.one_mul]
    omega

theorem tower_length (be : Bool) (L : Nat) (names : List Str) (h : ∀ n ∈ names, n.length ≤ L) (l : Nat) :
    (tower be names l).length ≤ 1 + l * (12 + names.length * (L + 8)) := by
  induction l with
  | zero => simp [tower]
  | succ l ih =>
    have h1 := refs_length be l L names h
    have h2 := sizeBytes_le be (names.length + 1)
    have h3 : (strBytes be []).length = 1 := by simp [strBytes, sizeBytes]
    have h4 : (strBytes be [0x61]).length = 2 := by simp [strBytes, sizeBytes]
    rw [Nat.add_mul, Nat.one_mul]
    simp only [tower, List.length_append, List.length_cons, wireBytes_length, h3, h4]
    omega

/-! ### elements of arrays -/

theorem getInt_rest (n : Nat) (i : In) (h : (getInt n i).2.err = false) : i.rest.length = (getInt n i).2.rest.length + n := by
  revert h
  unfold getInt
  split
  · intro h; simp [In.fault] at h
  · rename_i he
    intro _
    simp only [In.ensure, Bool.not_eq_true, Bool.not_eq_false', Bool.and_eq_true, decide_eq_true_eq] at he
    simp only [List.length_drop]; omega

theorem pods_paid (w n : Nat) : ∀ i, (getPods w n i).2.err = false →
    (getPods w n i).1.length = n ∧ n * w + (getPods w n i).2.rest.length = i.rest.length := by
  induction n with
  | zero => intro i _; simp [getPods]
  | succ n ih =>
    intro i
    simp only [getPods]
    split
    · intro h; simp [In.fault] at h
    · intro h
      have h1 := ih (getInt w i).2 h
      have h2 := getInt_rest w i ((good_getPods w n).err_false _ h)
      simp only [List.length_cons, Nat.add_mul, Nat.one_mul]
      omega

theorem getSize_rest (an : Bool) (i : In) : (getSize an i).2.rest.length ≤ i.rest.length := rest_le (good_getSize an) i

theorem getSize_pays (an : Bool) (i : In) (h : (getSize an i).2.err = false) : (getSize an i).2.rest.length + 1 ≤ i.rest.length := by
  have hu : (getU8 i).2.err = false → (getU8 i).2.rest.length + 1 ≤ i.rest.length := fun h => by have := getU8_rest i h; omega
  revert h
  unfold getSize
  split
  · intro h; simp [In.fault] at h
  · simp only
    split
    · exact hu
    · split
      · intro h
        have h1 := getInt_rest 4 (getU8 i).2 h
        have h2 := hu ((good_getInt 4).err_false _ h)
        omega
      · split
        · exact hu
        · intro h; simp [In.fault] at h

theorem getStr_pays (i : In) (h : (getStr i).2.err = false) : (getStr i).1.length + 1 + (getStr i).2.rest.length ≤ i.rest.length := by
  revert h
  unfold getStr
  simp only
  split
  · intro h
    have := getSize_pays true i h
    simp only [List.length_nil]; omega
  · split
    · intro h; simp [In.fault] at h
    · rename_i he
      intro h
      have := getSize_pays true i h
      simp only [In.ensure, Bool.not_eq_true, Bool.not_eq_false', Bool.and_eq_true, decide_eq_true_eq] at he
      simp only [List.length_take, List.length_drop]
      omega

theorem strs_paid (n : Nat) : ∀ i, (getStrs n i).2.err = false →
    (getStrs n i).1.length = n ∧ textOf (getStrs n i).1 + (getStrs n i).2.rest.length ≤ i.rest.length := by
  induction n with
  | zero => intro i _; simp [getStrs, textOf]
  | succ n ih =>
    intro i
    simp only [getStrs]
    split
    · rename_i he; intro h; rw [he] at h; cases h
    · rename_i he
      intro h
      have h1 := ih (getStr i).2 h
      have h2 := getStr_pays i (by simpa using he)
      simp only [List.length_cons, textOf]
      omega

theorem good_elem {one : TypeStore → Dec (Val × TypeStore)} (h : ∀ c, Good (one c)) (c : TypeStore) (f : Byte) : Good (getElem one c f) := by
  unfold getElem
  split
  · exact h c
  · exact Good.pure _

/-! ### whole values -/

/-- a decoder of values: what it gives is paid by the bytes read -/
def Pays (d : Dec (Val × TypeStore)) : Prop := ∀ i, (d i).2.err = false → weightV (d i).1.1 + (d i).2.rest.length ≤ i.rest.length

theorem elems_paid {one : TypeStore → Dec (Val × TypeStore)} (g : ∀ c, Good (one c)) (hp : ∀ c, Pays (one c)) (n : Nat) :
    ∀ c i, (getElems one n c i).2.err = false → weightVs (getElems one n c i).1.1 + (getElems one n c i).2.rest.length ≤ i.rest.length := by
  induction n with
  | zero => intro c i _; simp [getElems, weightVs]
  | succ n ih =>
    intro c i
    simp only [getElems, Dec.bind_apply, Dec.pure_apply]
    intro h
    have h1 := ih _ _ h
    have h2 := (good_getElems g n _).err_false _ h
    have h3 := (good_elem g c (getU8 i).1).err_false _ h2
    have h4 := getU8_rest i h3
    have h5 : weightV (getElem one c (getU8 i).1 (getU8 i).2).1.1 + (getElem one c (getU8 i).1 (getU8 i).2).2.rest.length ≤ (getU8 i).2.rest.length := by
      revert h2
      unfold getElem
      split
      · intro h2; exact hp c _ h2
      · intro _; simp [weightV]
    simp only [weightVs]
    omega

theorem getSel_pays (i : In) (h : (getSel i).2.err = false) : (getSel i).2.rest.length + 1 ≤ i.rest.length := by
  have hu : (getU8 i).2.err = false → (getU8 i).2.rest.length + 1 ≤ i.rest.length := fun h => by have := getU8_rest i h; omega
  revert h
  unfold getSel
  split
  · intro h; simp [In.fault] at h
  · simp only
    split
    · exact hu
    · split
      · intro h
        have h1 := getInt_rest 4 (getU8 i).2 h
        have h2 := hu ((good_getInt 4).err_false _ h)
        simp only
        omega
      · split
        · exact hu
        · intro h; simp [In.fault] at h

theorem getType_pays (f : Nat) (c : TypeStore) (i : In) (h : (getType f c i).2.err = false) : (getType f c i).2.rest.length + 1 ≤ i.rest.length := by
  cases f with
  | zero => simp [getType, failWith, In.fault] at h
  | succ f =>
    revert h
    simp only [getType, failIf]
    split
    · intro h; simp [In.fault] at h
    · simp only [Dec.bind_apply, failIf]
      split
      · intro h; simp [In.fault] at h
      · rename_i he
        intro _
        have h1 := getU8_rest i (by simpa using he)
        have h2 := rest_le (good_getTypeBody (good_getType f) c (getU8 i).1) (getU8 i).2
        omega

theorem typed_paid {rec : ValDec} (hp : ∀ c t, Pays (rec c t)) (c : TypeStore) (i : In) (h : (getTyped rec c i).2.err = false) :
    1 + weightV (getTyped rec c i).1.1 + (getTyped rec c i).2.rest.length ≤ i.rest.length := by
  revert h
  simp only [getTyped, Dec.bind_apply, failIf]
  split
  · intro h; simp [In.fault] at h
  · rename_i he
    have h1 := getType_pays 21 c i (by simpa [getTypeTop] using he)
    split
    · intro _; simp only [Dec.pure_apply, weightV, getTypeTop]; omega
    · intro h
      have := hp _ _ _ h
      simp only [getTypeTop] at this ⊢
      omega

theorem vals_paid {one : TypeStore → Dec (Val × TypeStore)} (g : ∀ c, Good (one c)) (hp : ∀ c, Pays (one c)) (c : TypeStore) (i : In)
    (h : (getVals one c i).2.err = false) : weightD (getVals one c i).1.1 + (getVals one c i).2.rest.length ≤ i.rest.length := by
  revert h
  simp only [getVals, Dec.bind_apply, Dec.pure_apply]
  intro h
  have h1 := elems_paid g hp _ _ _ h
  have h2 := getSize_rest false i
  simp only [weightD]
  omega

theorem pods_width (c : TypeCode) (w : Nat) (h : c.wireKind = .pods w) : 1 ≤ w := by
  have key : ∀ n : Fin 256, ∀ w, (⟨UInt8.ofFin n⟩ : TypeCode).wireKind = .pods w → 1 ≤ w := by
    intro n w h
    have : ∀ n : Fin 256, (match (⟨UInt8.ofFin n⟩ : TypeCode).wireKind with | .pods w => decide (1 ≤ w) | _ => true) = true := by decide +kernel
    have := this n
    rw [h] at this
    simpa using this
  obtain ⟨b⟩ := c
  have := key b.toFin w
  simpa using this (by simpa using h)

theorem int_width (c : TypeCode) (w : Nat) (h : c.wireKind = .int w ∨ c.wireKind = .uint w) : 1 ≤ w := by
  have key : ∀ n : Fin 256, ∀ w, ((⟨UInt8.ofFin n⟩ : TypeCode).wireKind = .int w ∨ (⟨UInt8.ofFin n⟩ : TypeCode).wireKind = .uint w) → 1 ≤ w := by
    intro n w h
    have : ∀ n : Fin 256, (match (⟨UInt8.ofFin n⟩ : TypeCode).wireKind with | .int w => decide (1 ≤ w) | .uint w => decide (1 ≤ w) | _ => true) = true := by
      decide +kernel
    have := this n
    rcases h with h | h <;> (rw [h] at this; simpa using this)
  obtain ⟨b⟩ := c
  have := key b.toFin w
  simpa using this (by simpa using h)

theorem datum_paid {rec : ValDec} (g : ∀ c t, Good (rec c t)) (hp : ∀ c t, Pays (rec c t)) (c : TypeStore) (d : FieldDesc) (i : In)
    (h : (getDatum rec c d i).2.err = false) : weightD (getDatum rec c d i).1.1 + (getDatum rec c d i).2.rest.length ≤ i.rest.length := by
  have vi : ∀ w, 1 ≤ w → (getInt w i).2.err = false → 1 + (getInt w i).2.rest.length ≤ i.rest.length := by
    intro w hw h
    have := getInt_rest w i h
    omega
  revert h
  unfold getDatum
  cases hk : d.code.wireKind
  case f32 =>
    simp only [Dec.bind_apply, Dec.pure_apply, weightD]; exact vi 4 (by omega)
  case f64 =>
    simp only [Dec.bind_apply, Dec.pure_apply, weightD]; exact vi 8 (by omega)
  case int w =>
    simp only [Dec.bind_apply, Dec.pure_apply, weightD]; exact vi w (int_width _ _ (.inl hk))
  case uint w =>
    simp only [Dec.bind_apply, Dec.pure_apply, weightD]; exact vi w (int_width _ _ (.inr hk))
  case bool =>
    simp only [Dec.bind_apply, Dec.pure_apply, weightD]
    intro h; have := getU8_rest i h; omega
  case str =>
    simp only [Dec.bind_apply, Dec.pure_apply, weightD]
    intro h; have := getStr_pays i h; omega
  case union =>
    simp only [Dec.bind_apply]
    unfold getUnion
    split
    · intro h
      have := getSel_pays i h
      simp only [Dec.pure_apply, weightD]; omega
    · cases hc : choice? d (getSel i).1.toNat with
      | none => intro h; simp [failWith, In.fault] at h
      | some t =>
        simp only [Dec.bind_apply, Dec.pure_apply, weightD]
        intro h
        have h1 := hp _ _ _ h
        have h2 := getSel_pays i ((g _ _).err_false _ h)
        omega
  case any =>
    simp only [Dec.bind_apply, Dec.pure_apply, weightD]
    exact typed_paid hp c i
  case pods w =>
    simp only [Dec.bind_apply, Dec.pure_apply, weightD, getPodArr]
    intro h
    have h1 := pods_paid w _ _ h
    have h2 := getSize_rest false i
    have h3 := Nat.mul_le_mul_left (getSize false i).1 (pods_width _ _ hk)
    rw [h1.1]
    omega
  case strs =>
    simp only [Dec.bind_apply, Dec.pure_apply, weightD, getStrArr]
    intro h
    have h1 := strs_paid _ _ h
    have h2 := getSize_rest false i
    omega
  case structs =>
    exact vals_paid (fun c => g c d.members) (fun c => hp c d.members) c i
  case unions =>
    refine vals_paid (fun c => Good.bind good_getSel fun s => good_getUnionElem g c _ s) (fun c => ?_) c i
    intro i h
    simp only [Dec.bind_apply] at h ⊢
    revert h
    have hs := rest_le good_getSel i
    unfold getUnionElem
    split
    · intro _; simp only [Dec.pure_apply, weightV]; omega
    · cases hc : choice? (elemDesc d) (getSel i).1.toNat with
      | none => intro h; simp [failWith, In.fault] at h
      | some t =>
        intro h
        have := hp _ _ _ h
        simp only at this ⊢
        omega
  case anys =>
    refine vals_paid (fun c => good_getTyped g c) (fun c => ?_) c i
    intro i h
    have := typed_paid hp c i h
    omega
  case struct =>
    intro h; simp [failWith, In.fault] at h
  case bad =>
    intro h; simp [failWith, In.fault] at h

theorem cells_paid {rec : ValDec} (g : ∀ c t, Good (rec c t)) (hp : ∀ c t, Pays (rec c t)) (mark : Bool) (t : List FieldDesc) :
    ∀ c i, (getCells rec mark c t i).2.err = false → weightCs (getCells rec mark c t i).1.1 + (getCells rec mark c t i).2.rest.length ≤ i.rest.length := by
  induction t with
  | nil => intro c i _; simp [getCells, weightCs]
  | cons d t ih =>
    intro c i
    simp only [getCells, Dec.bind_apply, Dec.pure_apply]
    intro h
    have h1 := ih _ _ h
    have h2 := (good_getCells g mark t _).err_false _ h
    have h3 : weightC (getCell rec mark c d i).1.1 + (getCell rec mark c d i).2.rest.length ≤ i.rest.length := by
      revert h2
      unfold getCell
      split
      · intro _; simp [weightC, weightD]
      · simp only [Dec.bind_apply, Dec.pure_apply, weightC]
        exact datum_paid g hp c d i
    simp only [weightCs]
    omega

theorem val_pays (f : Nat) : ∀ c t, Pays (getVal f c t) := by
  induction f with
  | zero => intro c t i h; simp [getVal, failWith, In.fault] at h
  | succ f ih =>
    intro c t i
    simp only [getVal, failIf]
    split
    · intro h; simp [In.fault] at h
    · simp only [Dec.bind_apply, Dec.pure_apply, weightV]
      exact cells_paid (good_getVal f) ih _ _ _ _

end Pvxs.Lemmas.Memory
