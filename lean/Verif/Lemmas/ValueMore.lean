import Verif.Lemmas.ValuePart
namespace Pvxs
open Wire Spec

/-! ### the received value is the value sent -/

mutual
theorem unmarked_received (v : Val) (h : NoUnionArrays v) (ok : ValOK v) : unmarked (received v) = unmarked v := by
  match v with
  | .null => simp only [received, unmarked]
  | .mk t cs =>
    simp only [NoUnionArrays] at h
    simp only [ValOK] at ok
    simp only [received, unmarked]
    rw [unmarked_receivedCells _ t cs h ok.2.2.2]
theorem unmarked_receivedCells (mark : Bool) (t : List FieldDesc) (cs : List Cell) (h : NoUnionArraysCells t cs) (ok : CellsOK t cs) :
    unmarkedCells (receivedCells mark t cs) = unmarkedCells cs := by
  match t, cs with
  | [], [] => simp only [receivedCells]
  | [], .mk _ _ :: _ => simp only [CellsOK] at ok
  | _ :: _, [] => simp only [CellsOK] at ok
  | d :: t, .mk b x :: cs =>
    simp only [NoUnionArraysCells] at h
    simp only [CellsOK] at ok
    simp only [receivedCells, unmarkedCells]
    rw [unmarked_receivedCells mark t cs h.2.2 ok.2, unmarked_receivedDatum d x h.1 h.2.1 ok.1]
theorem unmarked_receivedDatum (d : FieldDesc) (x : Datum) (hc : d.code ≠ .UnionA) (h : NoUnionArraysDatum x) (ok : DatumOK d x) :
    unmarkedDatum (receivedDatum d x) = unmarkedDatum x := by
  match x with
  | .null | .real _ | .int _ | .uint _ | .bool _ | .str _ | .unionNull | .pods _ | .strs _ => simp only [receivedDatum]
  | .union i v =>
    simp only [NoUnionArraysDatum] at h
    simp only [DatumOK] at ok
    simp only [receivedDatum, unmarkedDatum]
    rw [unmarked_received v h ok.2.2.1]
  | .any v =>
    simp only [NoUnionArraysDatum] at h
    simp only [DatumOK] at ok
    simp only [receivedDatum, unmarkedDatum]
    rw [unmarked_receivedAny v h ok.2]
  | .vals vs =>
    simp only [NoUnionArraysDatum] at h
    simp only [DatumOK] at ok
    simp only [receivedDatum, unmarkedDatum]
    rw [if_neg hc]
    rcases ok.2 with h1 | h1 | h1
    · rw [unmarked_receivedSame d.members vs h h1.2]
    · exact absurd h1.1 hc
    · rw [unmarked_receivedAnys vs h h1.2]
theorem unmarked_receivedAny (v : Val) (h : NoUnionArrays v) (ok : AnyOK v) : unmarked (received v) = unmarked v := by
  match v with
  | .null => simp only [received, unmarked]
  | .mk t cs =>
    simp only [NoUnionArrays] at h
    simp only [AnyOK] at ok
    simp only [received, unmarked]
    rw [unmarked_receivedCells _ t cs h ok.2.2]
theorem unmarked_receivedSame (t : List FieldDesc) (vs : List Val) (h : NoUnionArraysVals vs) (ok : SameElemsOK t vs) :
    unmarkedVals (receivedVals vs) = unmarkedVals vs := by
  match vs with
  | [] => simp only [receivedVals]
  | .null :: vs =>
    simp only [NoUnionArraysVals] at h
    simp only [SameElemsOK] at ok
    simp only [receivedVals, unmarkedVals, received]
    rw [unmarked_receivedSame t vs h.2 ok]
  | .mk t' cs :: vs =>
    simp only [NoUnionArraysVals, NoUnionArrays] at h
    simp only [SameElemsOK] at ok
    simp only [receivedVals, unmarkedVals, received, unmarked]
    rw [unmarked_receivedSame t vs h.2 ok.2, unmarked_receivedCells _ t' cs h.1 ok.1.2.2.2.2]
theorem unmarked_receivedAnys (vs : List Val) (h : NoUnionArraysVals vs) (ok : AnyElemsOK vs) :
    unmarkedVals (receivedVals vs) = unmarkedVals vs := by
  match vs with
  | [] => simp only [receivedVals]
  | v :: vs =>
    simp only [NoUnionArraysVals] at h
    simp only [AnyElemsOK] at ok
    simp only [receivedVals, unmarkedVals]
    rw [unmarked_receivedAnys vs h.2 ok.2, unmarked_receivedAny v h.1 ok.1]
end

/-! ### recursion depth -/

/-- a successful decoder `d` is matched by `e` -/
def Follows (d e : Dec α) (i : In) : Prop := (d i).2.err = false → e i = d i

theorem follows_bind {d d' : Dec α} {f f' : α → Dec β} (i : In) (hd : Good d) (gf : ∀ a, Good (f a))
    (h1 : Follows d d' i) (h2 : (d i).2.err = false → Follows (f (d i).1) (f' (d i).1) (d i).2) :
    Follows (d >>= f) (d' >>= f') i := by
  intro h
  rw [Dec.bind_apply] at h
  have h3 : (d i).2.err = false := (gf _).err_false _ h
  rw [Dec.bind_apply, Dec.bind_apply, h1 h3]
  exact h2 h3 h

theorem Follows.rfl {d : Dec α} {i : In} : Follows d d i := fun _ => Eq.refl _

/-- on successful inputs with fewer than `n` bytes `rec'` does what `rec` does -/
def Agree (n : Nat) (rec rec' : ValDec) : Prop := ∀ c t i, i.rest.length < n → Follows (rec c t) (rec' c t) i

theorem Agree.mono {n k : Nat} {rec rec' : ValDec} (h : Agree n rec rec') (hk : k ≤ n) : Agree k rec rec' :=
  fun c t i hi => h c t i (by omega)

theorem rest_le {d : Dec α} (g : Good d) (i : In) : (d i).2.rest.length ≤ i.rest.length := by
  obtain ⟨u, hu⟩ := g.suffix i
  rw [← hu]; simp

/-- a decoder which fails on an empty buffer consumes something when it succeeds -/
theorem consumes {d : Dec α} (g : Good d) (h0 : ∀ be, (d ⟨be, false, []⟩).2.err = true) (i : In) (h : (d i).2.err = false) :
    (d i).2.rest.length < i.rest.length := by
  obtain ⟨u, h1, h2⟩ := g.split i h
  have h3 : i.rest = u ++ (d i).2.rest := congrArg In.rest h1
  cases u with
  | nil =>
    have := g.loc _ [] _ _ h2 []
    have h4 := h0 i.be
    simp only [List.nil_append] at this
    rw [this] at h4
    cases h4
  | cons b u => rw [h3]; simp; omega

theorem getU8_empty (be : Bool) : (getU8 ⟨be, false, []⟩).2.err = true := rfl

theorem follows_typed {n : Nat} {rec rec' : ValDec} (g : ∀ c t, Good (rec c t)) (h : Agree n rec rec') (c : TypeStore) (i : In)
    (hi : i.rest.length ≤ n) : Follows (getTyped rec c) (getTyped rec' c) i := by
  refine follows_bind i (good_getType _ _) (fun _ => good_failIf _ _ (Good.ite (Good.pure _) (g _ _))) Follows.rfl ?_
  intro h1
  have hc : (getTypeTop c i).2.rest.length < i.rest.length :=
    consumes (good_getType 21 c) (fun be => rfl) i h1
  intro h2
  unfold failIf at h2 ⊢
  rw [h1] at h2 ⊢
  simp only [Bool.false_eq_true, or_self, if_false] at h2 ⊢
  split
  · rfl
  · rename_i hne
    rw [if_neg hne] at h2
    exact h _ _ _ (by omega) h2

theorem follows_union {n : Nat} {rec rec' : ValDec} (g : ∀ c t, Good (rec c t)) (h : Agree n rec rec') (c : TypeStore) (d : FieldDesc)
    (s : Int) (i : In) (hi : i.rest.length < n) : Follows (getUnion rec c d s) (getUnion rec' c d s) i := by
  unfold getUnion
  split
  · exact Follows.rfl
  · split
    · exact Follows.rfl
    · exact follows_bind i (g _ _) (fun _ => Good.pure _) (h _ _ _ hi) fun _ => Follows.rfl

theorem follows_unionElem {n : Nat} {rec rec' : ValDec} (h : Agree n rec rec') (c : TypeStore) (d : FieldDesc)
    (s : Int) (i : In) (hi : i.rest.length < n) : Follows (getUnionElem rec d c s) (getUnionElem rec' d c s) i := by
  unfold getUnionElem
  split
  · exact Follows.rfl
  · split
    · exact Follows.rfl
    · exact h _ _ _ hi

theorem follows_elems {n : Nat} {one one' : TypeStore → Dec (Val × TypeStore)} (g : ∀ c, Good (one c))
    (h : ∀ c i, i.rest.length < n → Follows (one c) (one' c) i) (k : Nat) : ∀ (c : TypeStore) (i : In), i.rest.length ≤ n →
    Follows (getElems one k c) (getElems one' k c) i := by
  induction k with
  | zero => intro c i _; exact Follows.rfl
  | succ k ih =>
    intro c i hi
    have g1 : ∀ c f, Good (getElem one c f) := fun c f => by unfold getElem; exact Good.ite (g _) (Good.pure _)
    refine follows_bind i good_getU8 (fun f => Good.bind (g1 _ _) fun r => Good.bind (good_getElems g k _) fun _ => Good.pure _)
      Follows.rfl ?_
    intro h1
    have hc := consumes good_getU8 getU8_empty i h1
    refine follows_bind _ (g1 _ _) (fun r => Good.bind (good_getElems g k _) fun _ => Good.pure _) ?_ ?_
    · unfold getElem
      split
      · exact h _ _ (by omega)
      · exact Follows.rfl
    · intro h2
      have hr := rest_le (g1 c (getU8 i).1) (getU8 i).2
      exact follows_bind _ (good_getElems g k _) (fun _ => Good.pure _) (ih _ _ (by omega)) fun _ => Follows.rfl

theorem follows_vals {n : Nat} {one one' : TypeStore → Dec (Val × TypeStore)} (g : ∀ c, Good (one c))
    (h : ∀ c i, i.rest.length < n → Follows (one c) (one' c) i) (c : TypeStore) (i : In) (hi : i.rest.length ≤ n) :
    Follows (getVals one c) (getVals one' c) i := by
  refine follows_bind i (good_getSize _) (fun _ => Good.bind (good_getElems g _ _) fun _ => Good.pure _) Follows.rfl ?_
  intro _
  have hr := rest_le (good_getSize false) i
  exact follows_bind _ (good_getElems g _ _) (fun _ => Good.pure _) (follows_elems g h _ _ _ (by omega)) fun _ => Follows.rfl

theorem follows_datum {n : Nat} {rec rec' : ValDec} (g : ∀ c t, Good (rec c t)) (h : Agree n rec rec') (c : TypeStore)
    (d : FieldDesc) (i : In) (hi : i.rest.length ≤ n) : Follows (getDatum rec c d) (getDatum rec' c d) i := by
  unfold getDatum
  split
  any_goals exact Follows.rfl
  · refine follows_bind i good_getSel (fun _ => good_getUnion g _ _ _) Follows.rfl ?_
    intro h1
    have hc := consumes good_getSel (fun be => rfl) i h1
    exact follows_union g h _ _ _ _ (by omega)
  · exact follows_bind i (good_getTyped g _) (fun _ => Good.pure _) (follows_typed g h _ _ hi) fun _ => Follows.rfl
  · exact follows_vals (fun c => g _ _) (fun c i hi => h _ _ _ hi) _ _ hi
  · refine follows_vals (fun c => Good.bind good_getSel fun _ => good_getUnionElem g _ _ _) (fun c i hi => ?_) _ _ hi
    refine follows_bind i good_getSel (fun _ => good_getUnionElem g _ _ _) Follows.rfl ?_
    intro h1
    have hc := consumes good_getSel (fun be => rfl) i h1
    exact follows_unionElem h _ _ _ _ (by omega)
  · exact follows_vals (fun c => good_getTyped g _) (fun c i hi => follows_typed g h _ _ (by omega)) _ _ hi

theorem follows_cells {n : Nat} {rec rec' : ValDec} (g : ∀ c t, Good (rec c t)) (h : Agree n rec rec') (mark : Bool)
    (t : List FieldDesc) : ∀ (c : TypeStore) (i : In), i.rest.length ≤ n → Follows (getCells rec mark c t) (getCells rec' mark c t) i := by
  induction t with
  | nil => intro c i _; exact Follows.rfl
  | cons d t ih =>
    intro c i hi
    refine follows_bind i (good_getCell g _ _ _) (fun _ => Good.bind (good_getCells g _ _ _) fun _ => Good.pure _) ?_ ?_
    · unfold getCell
      split
      · exact Follows.rfl
      · exact follows_bind i (good_getDatum g _ _) (fun _ => Good.pure _) (follows_datum g h _ _ _ hi) fun _ => Follows.rfl
    · intro _
      have hr := rest_le (good_getCell g mark c d) i
      exact follows_bind _ (good_getCells g _ _ _) (fun _ => Good.pure _) (ih _ _ (by omega)) fun _ => Follows.rfl

theorem follows_val {n f f' : Nat} (h : Agree n (getVal f) (getVal f')) (c : TypeStore) (t : List FieldDesc) (i : In)
    (hi : i.rest.length ≤ n) : Follows (getVal (f+1) c t) (getVal (f'+1) c t) i := by
  unfold Follows
  simp only [getVal, failIf]
  intro h1
  split
  · rfl
  · rename_i hc
    rw [if_neg hc] at h1
    exact follows_bind i (good_getCells (good_getVal f) _ _ _) (fun _ => Good.pure _)
      (follows_cells (good_getVal f) h _ _ _ _ hi) (fun _ => Follows.rfl) h1

/-- more depth does not change a successful decode -/
theorem getVal_more (f k : Nat) : ∀ n, Agree n (getVal f) (getVal (f + k)) := by
  induction f with
  | zero =>
    intro n c t i _ h
    simp [getVal, failWith, In.fault] at h
  | succ f ih =>
    intro n c t i hi
    rw [show f + 1 + k = (f + k) + 1 by omega]
    exact follows_val (ih n) c t i (by omega)

/-- no more depth is needed than there are bytes in the message -/
theorem getVal_enough (n : Nat) : ∀ f, Agree n (getVal f) (getVal n) := by
  induction n with
  | zero => intro f c t i h; omega
  | succ n ih =>
    intro f c t i hi
    cases f with
    | zero => intro h; simp [getVal, failWith, In.fault] at h
    | succ f => exact follows_val (ih f) c t i (by omega)

/-! ### types the constructor of a value accepts -/

theorem res_forM_ok {α : Type} {f : α → Res Unit} : ∀ {l : List α}, l.forM f = .ok () → ∀ x ∈ l, f x = .ok ()
  | [], _, _, hx => by simp at hx
  | a :: l, h, x, hx => by
    have h : (f a >>= fun _ => l.forM f) = .ok () := h
    obtain ⟨u, h1, h2⟩ := Res.bind_eq_ok h
    rcases List.mem_cons.mp hx with rfl | hx
    · exact h1
    · exact res_forM_ok h2 x hx

theorem smap_keep {m : SMap α} (h : SMap.Sorted m) (l : List (Str × α)) (q : Str × α) (hq : q ∈ m)
    (hk : q.1 ∉ l.map (·.1)) : q ∈ SMap.insertAll m l := by
  induction l generalizing m with
  | nil => exact hq
  | cons p l ih =>
    simp only [List.map_cons, List.mem_cons, not_or] at hk
    exact ih (SMap.sorted_insert h) ((SMap.mem_insert h q).mpr (Or.inr ⟨hk.1, hq⟩)) hk.2

/-- entries with distinct keys which are stored last are kept -/
theorem smap_last {m : SMap α} (h : SMap.Sorted m) (l : List (Str × α)) (hn : (l.map (·.1)).Nodup) (q : Str × α) (hq : q ∈ l) :
    q ∈ SMap.insertAll m l := by
  induction l generalizing m with
  | nil => simp at hq
  | cons p l ih =>
    simp only [List.map_cons, List.nodup_cons] at hn
    rcases List.mem_cons.mp hq with rfl | hq
    · exact smap_keep (SMap.sorted_insert h) l _ ((SMap.mem_insert h _).mpr (Or.inl (Eq.refl _))) hn.1
    · exact ih (SMap.sorted_insert h) hn.2 hq

theorem smap_sub {m : SMap α} (h : SMap.Sorted m) (l : List (Str × α)) (q : Str × α) (hq : q ∈ SMap.insertAll m l) :
    q ∈ m ∨ q ∈ l := by
  induction l generalizing m with
  | nil => exact Or.inl hq
  | cons p l ih =>
    rcases ih (SMap.sorted_insert h) hq with h1 | h1
    · rcases (SMap.mem_insert h q).mp h1 with h2 | h2
      · exact Or.inr (by simp [h2])
      · exact Or.inl h2.2
    · exact Or.inr (by simp [h1])

theorem storedAs_safe (c : TypeCode) : (∃ s, c.storedAs = .ok s) ∨ ∃ e, c.storedAs = .throws e := by
  cases h : c.storedAs with
  | ok s => exact Or.inl ⟨s, rfl⟩
  | throws e => exact Or.inr ⟨e, rfl⟩
  | ub =>
    exfalso
    have key : ∀ n : Fin 256, (match (⟨UInt8.ofFin n⟩ : TypeCode).storedAs with | .ub => false | _ => true) = true := by decide +kernel
    have := key c.code.toFin
    rw [show (⟨UInt8.ofFin c.code.toFin⟩ : TypeCode) = c from rfl, h] at this
    cases this

theorem allEntries_append (a b : List Member) : ∀ off, allEntries off (a ++ b) = allEntries off a ++ allEntries (off + countKids a) b := by
  induction a with
  | nil => intro off; simp [allEntries, countKids]
  | cons m a ih => intro off; simp only [List.cons_append, allEntries, countKids, ih, List.append_assoc, Nat.add_assoc]

/-- the last node of a structure has a name, whatever names are repeated -/
theorem last_entry (m : Member) : m.code = .Struct → m.children ≠ [] → ∃ k, (k, countKids m.children) ∈ lookOf m := by
  induction m using Member.ind with
  | h m ih =>
    intro hs hne
    obtain ⟨ms, c, hc⟩ : ∃ ms c, m.children = ms ++ [c] := ⟨_, _, (List.dropLast_concat_getLast hne).symm⟩
    have he : ∃ k, (k, countKids m.children) ∈ kidEntries c (1 + countKids ms) := by
      rw [hc, countKids_append]
      simp only [countKids, Nat.add_zero]
      by_cases hcs : c.code = .Struct ∧ c.children ≠ []
      · obtain ⟨k, hk⟩ := ih c (by rw [hc]; simp) hcs.1 hcs.2
        refine ⟨c.name ++ [0x2e] ++ k, mem_kidEntries.mpr (Or.inr ⟨hcs.1, k, _, hk, ?_⟩)⟩
        rw [count_struct c hcs.1]
        congr 1; omega
      · refine ⟨c.name, mem_kidEntries.mpr (Or.inl ?_)⟩
        have : count c = 1 := by
          by_cases h : c.code = .Struct
          · rw [count_struct c h]
            have : c.children = [] := by
              refine Classical.byContradiction fun hn => hcs ⟨h, hn⟩
            rw [this]; rfl
          · exact count_other c h
        congr 1; omega
    obtain ⟨k, hk⟩ := he
    refine ⟨k, ?_⟩
    rw [lookOf_struct m hs, hc, allEntries_append, SMap.insertAll_append]
    refine smap_last (SMap.sorted_insertAll SMap.sorted_nil _) _ ?_ _ ?_
    · simp only [allEntries, List.append_nil]
      exact kidEntries_nodup _ _
    · simp only [allEntries, List.append_nil]
      rw [← hc]; exact hk

/-- a structure a value can be constructed of has an entry for each node -/
theorem full_of_newValue (m : Member) (h : (newValue (flat m)).isOk = true) : Full m := by
  intro hs
  by_cases hne : m.children = []
  · rw [hne]
    have := lookOf_length_le m hs
    rw [hne] at this
    simp [countKids] at this
    simp [countKids, this]
  · obtain ⟨k, hk⟩ := last_entry m hs hne
    rw [flat_struct m hs] at h
    have hle := lookOf_length_le m hs
    have hc : checkNew (structRoot m :: flatKids true 1 m.children) = .ok () := by
      revert h
      simp only [newValue]
      cases checkNew (structRoot m :: flatKids true 1 m.children) with
      | ok u => intro _; rfl
      | throws => intro h; cases h
      | ub => intro h; cases h
    simp only [checkNew] at hc
    obtain ⟨u, _, h2⟩ := Res.bind_eq_ok hc
    rw [if_pos (by rfl)] at h2
    have h3 := res_forM_ok h2 (k, countKids m.children) hk
    simp only [initNode] at h3
    split at h3
    · rename_i hlt
      rw [structRoot_size] at hlt
      omega
    · cases h3

theorem cellsOK_get : ∀ {t : List FieldDesc} {cs : List Cell} {i : Nat} {d : FieldDesc} {x : Cell}, CellsOK t cs →
    t[i]? = some d → cs[i]? = some x → DatumOK d x.data
  | [], _, _, _, _, _, h, _ => by simp at h
  | _ :: _, [], _, _, _, h, _, _ => by simp [CellsOK] at h
  | d' :: t, .mk b x' :: cs, i, d, x, ok, h1, h2 => by
    simp only [CellsOK] at ok
    cases i with
    | zero => simp only [List.getElem?_cons_zero, Option.some.injEq] at h1 h2; subst h1 h2; exact ok.1
    | succ i => simp only [List.getElem?_cons_succ] at h1 h2; exact cellsOK_get ok.2 h1 h2

/-- the values stored in a name table are node indices -/
theorem lookOf_le (m : Member) : m.code = .Struct → ∀ q ∈ lookOf m, 1 ≤ q.2 ∧ q.2 ≤ countKids m.children := by
  induction m using Member.ind with
  | h m ih =>
    intro hs q hq
    rw [lookOf_struct m hs] at hq
    have hq := smap_sub SMap.sorted_nil _ q hq
    simp only [List.not_mem_nil, false_or] at hq
    obtain ⟨o, c, hk, hq⟩ := mem_allEntries.mp hq
    have hb := hk.bound
    rcases mem_kidEntries.mp hq with rfl | ⟨hcs, p, x, hp, rfl⟩
    · simp only
      have := count_pos c
      omega
    · have := ih c hk.mem hcs _ hp
      rw [count_struct c hcs] at hb
      simp only at this ⊢
      omega

theorem initNode_safe (t : List FieldDesc) (d : FieldDesc) (off : Nat) (h : off < d.size → off < t.length) :
    initNode t d off ≠ .ub := by
  unfold initNode
  split
  · rename_i hlt
    rw [List.getElem?_eq_getElem (h hlt)]
    simp only
    rcases storedAs_safe (t[off]'(h hlt)).code with ⟨s, hs⟩ | ⟨e, he⟩
    · rw [hs]; intro h; cases h
    · rw [he]; intro h; cases h
  · intro h; cases h

theorem forM_safe {α : Type} {f : α → Res Unit} : ∀ {l : List α}, (∀ x ∈ l, f x ≠ .ub) → l.forM f ≠ .ub
  | [], _ => by intro h; cases h
  | a :: l, h => by
    show (f a >>= fun _ => l.forM f) ≠ .ub
    have h1 := h a (by simp)
    cases hf : f a with
    | ok u => exact forM_safe (fun x hx => h x (by simp [hx]))
    | throws e => intro h; cases h
    | ub => exact absurd hf h1

theorem newValue_safe (m : Member) : newValue (flat m) ≠ .ub := by
  have h : checkNew (flat m) ≠ .ub := by
    cases hf : flat m with
    | nil => intro h; cases h
    | cons d ds =>
      simp only [checkNew]
      rcases storedAs_safe d.code with ⟨s, hs⟩ | ⟨e, he⟩
      · rw [hs]
        show (if d.code = .Struct then d.mlookup.forM fun p => initNode (d :: ds) d p.2 else .ok ()) ≠ .ub
        split
        · rename_i hc
          obtain ⟨r, rs, h1, h2, _, h3⟩ := flat_head m
          rw [hf] at h1
          cases h1
          have hm : m.code = .Struct := by rw [← h2]; exact hc
          refine forM_safe fun p hp => initNode_safe _ _ _ fun _ => ?_
          rw [h3 hc] at hp
          have := lookOf_le m hm p hp
          rw [← hf, flat_length, count_struct m hm]
          omega
        · intro h; cases h
      · rw [he]; intro h; cases h
  unfold newValue
  cases hc : checkNew (flat m) with
  | ok u =>
    rw [show ∀ g : Unit → Res Val, (Res.ok u >>= g) = g u from fun _ => rfl]
    split
    · intro h; cases h
    · intro h; cases h
  | throws e => intro h; cases h
  | ub => exact absurd hc h

end Pvxs
