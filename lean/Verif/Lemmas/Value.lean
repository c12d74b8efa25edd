import Verif.Lemmas.Float
import Verif.Lemmas.BitMask
import Verif.Lemmas.TypeTable
import Verif.Spec.Value
namespace Pvxs
open Wire Spec

/-! ### the decoders are well behaved -/

theorem good_getUnion {rec : ValDec} (h : ∀ c t, Good (rec c t)) (c : TypeStore) (d : FieldDesc) (s : Int) :
    Good (getUnion rec c d s) := by
  unfold getUnion
  refine Good.ite (Good.pure _) ?_
  split
  · exact good_failWith _
  · exact Good.bind (h _ _) fun _ => Good.pure _

theorem good_getUnionElem {rec : ValDec} (h : ∀ c t, Good (rec c t)) (c : TypeStore) (d : FieldDesc) (s : Int) :
    Good (getUnionElem rec d c s) := by
  unfold getUnionElem
  refine Good.ite (Good.pure _) ?_
  split
  · exact good_failWith _
  · exact h _ _

theorem good_getTyped {rec : ValDec} (h : ∀ c t, Good (rec c t)) (c : TypeStore) : Good (getTyped rec c) :=
  Good.bind (good_getType _ _) fun _ => good_failIf _ _ (Good.ite (Good.pure _) (h _ _))

theorem good_getElems {one : TypeStore → Dec (Val × TypeStore)} (h : ∀ c, Good (one c)) (n : Nat) :
    ∀ c, Good (getElems one n c) := by
  induction n with
  | zero => intro c; exact Good.pure _
  | succ n ih =>
    intro c
    exact Good.bind good_getU8 fun f => Good.bind (by unfold getElem; exact Good.ite (h _) (Good.pure _)) fun r =>
      Good.bind (ih _) fun _ => Good.pure _

theorem good_getVals {one : TypeStore → Dec (Val × TypeStore)} (h : ∀ c, Good (one c)) (c : TypeStore) :
    Good (getVals one c) :=
  Good.bind (good_getSize _) fun _ => Good.bind (good_getElems h _ _) fun _ => Good.pure _

theorem good_getDatum {rec : ValDec} (h : ∀ c t, Good (rec c t)) (c : TypeStore) (d : FieldDesc) :
    Good (getDatum rec c d) := by
  unfold getDatum
  split
  · exact Good.bind (good_getInt _) fun _ => Good.pure _
  · exact Good.bind (good_getInt _) fun _ => Good.pure _
  · exact Good.bind (good_getInt _) fun _ => Good.pure _
  · exact Good.bind (good_getInt _) fun _ => Good.pure _
  · exact Good.bind good_getU8 fun _ => Good.pure _
  · exact Good.bind good_getStr fun _ => Good.pure _
  · exact Good.bind good_getSel fun _ => good_getUnion h _ _ _
  · exact Good.bind (good_getTyped h _) fun _ => Good.pure _
  · exact Good.bind (good_getPodArr _) fun _ => Good.pure _
  · exact Good.bind good_getStrArr fun _ => Good.pure _
  · exact good_getVals (fun c => h _ _) _
  · exact good_getVals (fun c => Good.bind good_getSel fun _ => good_getUnionElem h _ _ _) _
  · exact good_getVals (fun c => good_getTyped h _) _
  · exact good_failWith _
  · exact good_failWith _

theorem good_getCell {rec : ValDec} (h : ∀ c t, Good (rec c t)) (mark : Bool) (c : TypeStore) (d : FieldDesc) :
    Good (getCell rec mark c d) := by
  unfold getCell
  exact Good.ite (Good.pure _) (Good.bind (good_getDatum h _ _) fun _ => Good.pure _)

theorem good_getCells {rec : ValDec} (h : ∀ c t, Good (rec c t)) (mark : Bool) (t : List FieldDesc) :
    ∀ c, Good (getCells rec mark c t) := by
  induction t with
  | nil => intro c; exact Good.pure _
  | cons d t ih =>
    intro c
    exact Good.bind (good_getCell h _ _ _) fun _ => Good.bind (ih _) fun _ => Good.pure _

theorem good_getVal (f : Nat) : ∀ c t, Good (getVal f c t) := by
  induction f with
  | zero => intro c t; exact good_failWith _
  | succ f ih =>
    intro c t
    exact good_failIf _ _ (Good.bind (good_getCells ih _ _ _) fun _ => Good.pure _)

theorem good_getSub {rec : ValDec} (h : ∀ c t, Good (rec c t)) (c : TypeStore) (t : List FieldDesc) (old : List Cell) :
    Good (getSub rec c t old) :=
  Good.bind (good_getCells h _ _ _) fun r => Good.pure _

theorem good_getBits {rec : ValDec} (h : ∀ c t, Good (rec c t)) (t : List FieldDesc) (m : BitMask) (n : Nat) :
    ∀ c cs bit, Good (getBits rec t m n c cs bit) := by
  induction n with
  | zero => intro c cs bit; exact good_failWith _
  | succ n ih =>
    intro c cs bit
    unfold getBits
    split
    · exact Good.pure _
    · refine Good.bind (good_getSub h _ _ _) fun r => ?_
      split
      · exact good_failWith _
      · exact ih _ _ _

theorem good_getValid (f : Nat) (c : TypeStore) (v : Val) : Good (getValid f c v) := by
  unfold getValid
  split
  · exact good_failWith _
  · refine Good.bind BitMask.good_fromWire fun m => good_failIf _ _ ?_
    split
    · exact good_failWith _
    · exact Good.bind (good_getBits (good_getVal f) _ _ _ _ _ _) fun _ => Good.pure _

/-! ### encode, then decode -/

def ValCodec (be : Bool) (v : Val) : Prop :=
  ∃ bs, Emits be (putVal v) bs ∧ ∀ f c, nesting v ≤ f → Parses be (getVal f c v.desc) bs (received v, c)

theorem intBits_lt (w : Nat) (v : Int) : intBits w v < 256 ^ w := by
  have h : (0 : Int) < (256 ^ w : Nat) := by exact_mod_cast Nat.pow_pos (by decide)
  have h1 := Int.emod_lt_of_pos v h
  have h2 := Int.emod_nonneg v (Int.ne_of_gt h)
  unfold intBits
  omega

theorem intOf_intBits (w : Nat) (v : Int) (h1 : -(256 ^ w : Nat) ≤ 2 * v) (h2 : 2 * v < (256 ^ w : Nat)) :
    intOf w (intBits w v) = v := by
  unfold intOf intBits
  have hp : (0 : Int) < (256 ^ w : Nat) := by exact_mod_cast Nat.pow_pos (by decide)
  generalize hM : (256 ^ w : Nat) = M at *
  by_cases hv : 0 ≤ v
  · rw [Int.emod_eq_of_lt hv (by omega)]
    rw [if_pos (by omega)]
    omega
  · have : v % (M : Int) = v + M := by
      rw [← Int.add_emod_right, Int.emod_eq_of_lt (by omega) (by omega)]
    rw [this, if_neg (by omega)]
    omega

/-- a codec for one datum -/
def DatumCodec (be : Bool) (d : FieldDesc) (x : Datum) : Prop :=
  ∃ bs, Emits be (putDatum d x) bs ∧
    ∀ f c, nestingDatum x ≤ f → Parses be (getDatum (getVal f) c d) bs (receivedDatum d x, c)

theorem emits_congr {be : Bool} {e e' : Out → Out} {bs : List Byte} (h : ∀ o, e o = e' o) (he : Emits be e' bs) :
    Emits be e bs := by
  have : e = e' := funext h
  rw [this]; exact he

theorem codec_int (be : Bool) (d : FieldDesc) (w : Nat) (v : Int) (hk : d.code.wireKind = .int w)
    (h1 : -(256 ^ w : Nat) ≤ 2 * v) (h2 : 2 * v < (256 ^ w : Nat)) : DatumCodec be d (.int v) := by
  refine ⟨_, emits_congr (fun o => by simp only [putDatum, hk]) (emits_putInt be w (intBits w v)), ?_⟩
  intro f c _
  simp only [getDatum, hk, receivedDatum]
  have := Parses.map (parses_getInt be w _ (intBits_lt w v)) (fun n => (Datum.int (intOf w n), c))
  rwa [intOf_intBits w v h1 h2] at this

theorem codec_uint (be : Bool) (d : FieldDesc) (w : Nat) (v : Nat) (hk : d.code.wireKind = .uint w)
    (h : v < 256 ^ w) : DatumCodec be d (.uint v) := by
  refine ⟨_, emits_congr (fun o => by simp only [putDatum, hk]) (emits_putInt be w (v % 256 ^ w)), ?_⟩
  intro f c _
  simp only [getDatum, hk, receivedDatum]
  rw [Nat.mod_eq_of_lt h]
  exact Parses.map (parses_getInt be w _ h) (fun n => (Datum.uint n, c))

theorem codec_pods (be : Bool) (d : FieldDesc) (w : Nat) (vs : List Nat) (hk : d.code.wireKind = .pods w)
    (h : ∀ v ∈ vs, v < 256 ^ w) (hl : vs.length ≤ 0xffffffff) : DatumCodec be d (.pods vs) := by
  refine ⟨_, emits_congr (fun o => by simp only [putDatum, hk]) (emits_putPodArr be w vs hl), ?_⟩
  intro f c _
  simp only [getDatum, hk, receivedDatum]
  exact Parses.map (parses_getPodArr be w _ h hl) (fun n => (Datum.pods n, c))

/-- the type of an Any travels with it -/
theorem codec_type (be : Bool) (t : List FieldDesc) (h : Sendable t) :
    ∃ bs, Emits be (putType t) bs ∧ ∀ c, Parses be (getTypeTop c) bs (t, c) := by
  obtain ⟨m, hv, hf, hl, hb⟩ := h
  have he := encodable_of_validated m hv hf
  have e := build_ok m t hb
  subst e
  refine ⟨typeBytes be m, ?_, fun c => parses_type be m 21 c he hl⟩
  have := emits_type be m [] he
  simpa using this

theorem codec_typed (be : Bool) (n : Nat) (H : ∀ w, nesting w ≤ n → ValOK w → ValCodec be w) (t : List FieldDesc) (cs : List Cell)
    (h : AnyOK (.mk t cs)) (hn : nesting (.mk t cs) ≤ n) :
    ∃ bs, Emits be (fun o => putCells t cs (putType t o)) bs ∧
      ∀ f c, nesting (.mk t cs) ≤ f → Parses be (getTyped (getVal f) c) bs (received (.mk t cs), c) := by
  simp only [AnyOK] at h
  obtain ⟨bt, et, pt⟩ := codec_type be t h.1
  obtain ⟨bv, ev, pv⟩ := H (.mk t cs) hn (by simp only [ValOK]; exact ⟨h.2.1.1, h.2.1.2.1, h.2.1.2.2, h.2.2⟩)
  refine ⟨bt ++ bv, Emits.comp et (emits_congr (fun o => by simp only [putVal]) ev), ?_⟩
  intro f c hf
  refine Parses.bind (pt c) (parses_failIf _ _ rfl ?_)
  have : t.isEmpty = false := by simp [h.2.1.2.2]
  simp only [this, Bool.false_eq_true, if_false]
  exact pv f c hf

theorem codec_elems (be : Bool) (typed : Bool)
    (one : Nat → TypeStore → Dec (Val × TypeStore)) (got : Val → Val) (hnull : got .null = .null) (vs : List Val)
    (h : ∀ t cs, Val.mk t cs ∈ vs → ∃ bs, Emits be (fun o => putCells t cs (putElemType typed t o)) bs ∧
      ∀ f c, nesting (.mk t cs) ≤ f → Parses be (one f c) bs (got (.mk t cs), c)) :
    ∃ bs, Emits be (putElems typed vs) bs ∧
      ∀ f c, nestingVals vs ≤ f → Parses be (getElems (one f) vs.length c) bs (vs.map got, c) := by
  induction vs with
  | nil =>
    exact ⟨[], emits_congr (fun o => by simp only [putElems]) (Emits.id be), fun f c _ => Parses.pure be _⟩
  | cons v vs ih =>
    obtain ⟨bs, e, p⟩ := ih fun t cs hm => h t cs (List.mem_cons_of_mem _ hm)
    cases v with
    | null =>
      refine ⟨[0] ++ bs, emits_congr (fun o => by simp only [putElems]) (Emits.comp (emits_putU8 be 0) e), ?_⟩
      intro f c hf
      simp only [nestingVals, nesting] at hf
      refine Parses.bind (parses_getU8 be 0) ?_
      simp only [getElem, ne_eq, not_true, if_false, List.map_cons, hnull]
      refine Parses.bind (bs := []) (Parses.pure be _) ?_
      exact Parses.map (p f c (by omega)) (fun rs => (Val.null :: rs.1, rs.2))
    | mk t cs =>
      obtain ⟨bv, ev, pv⟩ := h t cs (by simp)
      refine ⟨[1] ++ (bv ++ bs), emits_congr (fun o => by simp only [putElems])
        (Emits.comp (emits_putU8 be 1) (Emits.comp ev e)), ?_⟩
      intro f c hf
      simp only [nestingVals] at hf
      refine Parses.bind (parses_getU8 be 1) ?_
      simp only [getElem, ne_eq, show (1 : Byte) ≠ 0 by decide, not_false_eq_true, if_true, List.map_cons]
      refine Parses.bind (pv f c (by omega)) ?_
      exact Parses.map (p f c (by omega)) (fun rs => (got (.mk t cs) :: rs.1, rs.2))

theorem receivedVals_map (vs : List Val) : receivedVals vs = vs.map received := by
  induction vs with
  | nil => simp [receivedVals]
  | cons v vs ih => simp [receivedVals, ih]

/-- element of a Union[] as seen by the receiver -/
def choiceOf : Val → Val
  | .mk _ [.mk _ (.union _ w)] => received w
  | _ => .null

theorem receivedChoices_map (vs : List Val) : receivedChoices vs = vs.map choiceOf := by
  induction vs with
  | nil => simp [receivedChoices]
  | cons v vs ih =>
    simp only [List.map_cons, ← ih]
    conv => lhs; unfold receivedChoices
    unfold choiceOf
    split <;> simp_all

theorem sameElems_mem {t : List FieldDesc} {vs : List Val} (h : SameElemsOK t vs) {t' : List FieldDesc} {cs : List Cell}
    (hm : Val.mk t' cs ∈ vs) : t' = t ∧ (newValue t).isOk = true ∧ nodesOf t = t ∧ t ≠ [] ∧ CellsOK t' cs := by
  induction vs with
  | nil => simp at hm
  | cons v vs ih =>
    cases v with
    | null =>
      simp only [SameElemsOK] at h
      exact ih h (by simpa using hm)
    | mk t2 cs2 =>
      simp only [SameElemsOK] at h
      rcases List.mem_cons.mp hm with e | hm
      · cases e; exact h.1
      · exact ih h.2 hm

theorem anyElems_mem {vs : List Val} (h : AnyElemsOK vs) {v : Val} (hm : v ∈ vs) : AnyOK v := by
  induction vs with
  | nil => simp at hm
  | cons w vs ih =>
    simp only [AnyElemsOK] at h
    rcases List.mem_cons.mp hm with e | hm
    · rw [e]; exact h.1
    · exact ih h.2 hm

theorem nestingVals_mem {vs : List Val} {v : Val} (hm : v ∈ vs) : nesting v ≤ nestingVals vs := by
  induction vs with
  | nil => simp at hm
  | cons w vs ih =>
    simp only [nestingVals]
    rcases List.mem_cons.mp hm with e | hm
    · rw [e]; omega
    · have := ih hm; omega

theorem codec_vals (be : Bool) (typed : Bool) (one : Nat → TypeStore → Dec (Val × TypeStore)) (got : Val → Val)
    (vs : List Val) (hl : vs.length < 2 ^ 32) (hnull : got .null = .null)
    (h : ∀ t cs, Val.mk t cs ∈ vs → ∃ bs, Emits be (fun o => putCells t cs (putElemType typed t o)) bs ∧
      ∀ f c, nesting (.mk t cs) ≤ f → Parses be (one f c) bs (got (.mk t cs), c)) :
    ∃ bs, Emits be (fun o => putElems typed vs (putSize o vs.length)) bs ∧
      ∀ f c, nestingVals vs ≤ f → Parses be (getVals (one f) c) bs (.vals (vs.map got), c) := by
  obtain ⟨bs, e, p⟩ := codec_elems be typed one got hnull vs h
  refine ⟨_, Emits.comp (emits_putSize be vs.length (by omega)) e, ?_⟩
  intro f c hf
  refine Parses.bind (parses_getSize be false vs.length (by omega)) ?_
  exact Parses.map (p f c hf) (fun r => (Datum.vals r.1, r.2))

/-- choices of a union -/
theorem codec_union (be : Bool) (n : Nat) (H : ∀ w, nesting w ≤ n → ValOK w → ValCodec be w) (d : FieldDesc) (i : Nat) (v : Val)
    (hi : i < 2 ^ 32) (hv : ValOK v) (hp : ∃ p, d.miter[i]? = some p ∧ v.desc = subTable d.members p.2) (hn : nesting v ≤ n) :
    ∃ bs bv, Emits be (fun o => putVal v (putSel o i)) (bs ++ bv) ∧ Parses be getSel bs i ∧ i < d.miter.length ∧
      choice? d i = some v.desc ∧
      ∀ f c, nesting v ≤ f → Parses be (getVal f c v.desc) bv (received v, c) := by
  obtain ⟨p, hp1, hp2⟩ := hp
  obtain ⟨bv, ev, pv⟩ := H v hn hv
  refine ⟨_, bv, Emits.comp (emits_putSel be i (by omega)) ev, parses_getSel be i (by omega) (by omega),
    (List.getElem?_eq_some_iff.mp hp1).1, by simp [choice?, hp1, hp2], pv⟩

theorem codec_datum (be : Bool) (n : Nat) (H : ∀ w, nesting w ≤ n → ValOK w → ValCodec be w) (d : FieldDesc) (x : Datum)
    (h : DatumOK d x) (hs : d.code ≠ .Struct) (hn : nestingDatum x ≤ n) : DatumCodec be d x := by
  cases x with
  | null => exact absurd (by simpa only [DatumOK] using h) hs
  | real b =>
    simp only [DatumOK] at h
    rcases h with ⟨h1, h2⟩ | ⟨h1, f, h2, h3, h4⟩
    · have hk : d.code.wireKind = .f64 := by rw [h1]; decide
      refine ⟨_, emits_congr (fun o => by simp [putDatum, hk]) (emits_putInt be 8 b), ?_⟩
      intro f c _
      simp only [getDatum, hk, receivedDatum]
      exact Parses.map (parses_getInt be 8 b (by omega)) (fun b => (Datum.real b, c))
    · have hk : d.code.wireKind = .f32 := by rw [h1]; decide
      refine ⟨_, emits_congr (fun o => by simp [putDatum, hk]) (emits_putInt be 4 (narrow b)), ?_⟩
      intro f' c _
      simp only [getDatum, hk, receivedDatum]
      have e : narrow b = f := by rw [h4]; exact narrow_widen f h2 h3
      rw [e, h4]
      exact Parses.map (parses_getInt be 4 f (by omega)) (fun b => (Datum.real (widen b), c))
  | int v =>
    simp only [DatumOK] at h
    rcases h with ⟨h1, h2, h3⟩ | ⟨h1, h2, h3⟩ | ⟨h1, h2, h3⟩ | ⟨h1, h2, h3⟩
    · exact codec_int be d 1 v (by rw [h1]; decide) (by omega) (by omega)
    · exact codec_int be d 2 v (by rw [h1]; decide) (by omega) (by omega)
    · exact codec_int be d 4 v (by rw [h1]; decide) (by omega) (by omega)
    · exact codec_int be d 8 v (by rw [h1]; decide) (by omega) (by omega)
  | uint v =>
    simp only [DatumOK] at h
    rcases h with ⟨h1, h2⟩ | ⟨h1, h2⟩ | ⟨h1, h2⟩ | ⟨h1, h2⟩
    · exact codec_uint be d 1 v (by rw [h1]; decide) (by omega)
    · exact codec_uint be d 2 v (by rw [h1]; decide) (by omega)
    · exact codec_uint be d 4 v (by rw [h1]; decide) (by omega)
    · exact codec_uint be d 8 v (by rw [h1]; decide) (by omega)
  | bool b =>
    simp only [DatumOK] at h
    have hk : d.code.wireKind = .bool := by rw [h]; decide
    refine ⟨_, emits_congr (fun o => by simp only [putDatum, hk, if_true]) (emits_putU8 be (if b then 1 else 0)), ?_⟩
    intro f c _
    simp only [getDatum, hk, receivedDatum]
    have := Parses.map (parses_getU8 be (if b then 1 else 0)) (fun b => (Datum.bool (b != 0), c))
    cases b <;> exact this
  | str s =>
    simp only [DatumOK] at h
    have hk : d.code.wireKind = .str := by rw [h.1]; decide
    refine ⟨_, emits_congr (fun o => by simp only [putDatum, hk, if_true]) (emits_putStr be s (by omega)), ?_⟩
    intro f c _
    simp only [getDatum, hk, receivedDatum]
    exact Parses.map (parses_getStr be s (by omega)) (fun b => (Datum.str b, c))
  | unionNull =>
    simp only [DatumOK] at h
    have hk : d.code.wireKind = .union := by rw [h]; decide
    refine ⟨_, emits_congr (fun o => by simp only [putDatum, hk, if_true]) (emits_putSel be (-1) (by decide)), ?_⟩
    intro f c _
    simp only [getDatum, hk, receivedDatum]
    refine Parses.bind0 (parses_getSel be (-1) (by decide) (by decide)) ?_
    simp only [getUnion, Int.le_refl, if_true]
    exact Parses.pure be _
  | union i v =>
    simp only [DatumOK] at h
    obtain ⟨h1, h2, h3, h4⟩ := h
    simp only [nestingDatum] at hn
    obtain ⟨bs, bv, e, ps, hi, hch, pv⟩ := codec_union be n H d i v h2 h3 h4 hn
    have hk : d.code.wireKind = .union := by rw [h1]; decide
    refine ⟨_, emits_congr (fun o => by simp [putDatum, hk, hi]) e, ?_⟩
    intro f c hf
    simp only [nestingDatum] at hf
    simp only [getDatum, hk, receivedDatum]
    refine Parses.bind ps ?_
    have : ¬ ((i : Int) ≤ -1) := by omega
    simp only [getUnion, this, if_false, Int.toNat_natCast, hch]
    exact Parses.map (pv f c hf) (fun r => (Datum.union i r.1, r.2))
  | any v =>
    simp only [DatumOK] at h
    obtain ⟨h1, h2⟩ := h
    simp only [nestingDatum] at hn
    have hk : d.code.wireKind = .any := by rw [h1]; decide
    cases v with
    | null =>
      refine ⟨_, emits_congr (fun o => by simp only [putDatum, hk, if_true, putAny]) (emits_putU8 be 0xff), ?_⟩
      intro f c _
      simp only [getDatum, hk, receivedDatum, received]
      refine Parses.map (a := (Val.null, c)) ?_ (fun r : Val × TypeStore => (Datum.any r.1, r.2))
      refine Parses.bind0 (a := ([], c)) ?_ (parses_failIf _ _ rfl (Parses.pure be _))
      exact parses_failIf _ _ rfl (Parses.bind0 (parses_getU8 be 0xff) (parses_failIf _ _ rfl (by
        simp only [getTypeBody, if_true]; exact Parses.pure be _)))
    | mk t cs =>
      obtain ⟨bs, e, p⟩ := codec_typed be n H t cs h2 hn
      refine ⟨_, emits_congr (fun o => by simp only [putDatum, hk, if_true, putAny]) e, ?_⟩
      intro f c hf
      simp only [nestingDatum] at hf
      simp only [getDatum, hk, receivedDatum]
      exact Parses.map (p f c hf) (fun r => (Datum.any r.1, r.2))
  | pods vs =>
    simp only [DatumOK] at h
    obtain ⟨hl, h⟩ := h
    rcases h with ⟨h1, h2⟩ | ⟨h1, h2⟩ | ⟨h1, h2⟩ | ⟨h1, h2⟩ | ⟨h1, h2⟩
    · exact codec_pods be d 1 vs (by rw [h1]; decide) (fun v hv => by have := h2 v hv; omega) (by omega)
    · exact codec_pods be d 1 vs (by rcases h1 with h1 | h1 <;> rw [h1] <;> decide) (fun v hv => by have := h2 v hv; omega) (by omega)
    · exact codec_pods be d 2 vs (by rcases h1 with h1 | h1 <;> rw [h1] <;> decide) (fun v hv => by have := h2 v hv; omega) (by omega)
    · exact codec_pods be d 4 vs (by rcases h1 with h1 | h1 | h1 <;> rw [h1] <;> decide) (fun v hv => by have := h2 v hv; omega) (by omega)
    · exact codec_pods be d 8 vs (by rcases h1 with h1 | h1 | h1 <;> rw [h1] <;> decide) (fun v hv => by have := h2 v hv; omega) (by omega)
  | strs ss =>
    simp only [DatumOK] at h
    have hk : d.code.wireKind = .strs := by rw [h.1]; decide
    have hl : ∀ s ∈ ss, s.length ≤ 0xffffffff := fun s hs => by have := h.2.2 s hs; omega
    refine ⟨_, emits_congr (fun o => by simp only [putDatum, hk, if_true]) (emits_putStrArr be ss hl (by omega)), ?_⟩
    intro f c _
    simp only [getDatum, hk, receivedDatum]
    exact Parses.map (parses_getStrArr be ss hl (by omega)) (fun b => (Datum.strs b, c))
  | vals vs =>
    simp only [DatumOK] at h
    simp only [nestingDatum] at hn
    obtain ⟨hl, h⟩ := h
    rcases h with ⟨h1, h2⟩ | ⟨h1, ⟨u, hu, huc⟩, h2⟩ | ⟨h1, h2⟩
    · have hk : d.code.wireKind = .structs := by rw [h1]; decide
      obtain ⟨bs, e, p⟩ := codec_vals be false (fun f c => getVal f c d.members) received vs hl (by simp [received]) (by
        intro t cs hm
        obtain ⟨e1, e2, e3, e4, e5⟩ := sameElems_mem h2 hm
        obtain ⟨bv, ev, pv⟩ := H (.mk t cs) (Nat.le_trans (nestingVals_mem hm) hn)
          (by simp only [ValOK]; rw [e1] at e5 ⊢; exact ⟨e2, e3, e4, e5⟩)
        refine ⟨bv, emits_congr (fun o => by simp [putElemType, putVal]) ev, ?_⟩
        intro f c hf
        have := pv f c hf
        simp only [Val.desc] at this
        rwa [e1] at this ⊢)
      refine ⟨bs, emits_congr (fun o => by simp [putDatum, hk]) e, ?_⟩
      intro f c hf
      simp only [nestingDatum] at hf
      simp only [getDatum, receivedDatum, h1, receivedVals_map]
      exact p f c hf
    · have hk : d.code.wireKind = .unions := by rw [h1]; decide
      obtain ⟨bs, e, p⟩ := codec_vals be false (fun f c => do let s ← getSel; getUnionElem (getVal f) (elemDesc d) c s) choiceOf vs hl (by simp [choiceOf]) (by
        intro t cs hm
        obtain ⟨e1, e2, e3, e4, e5⟩ := sameElems_mem h2 hm
        have hnm := Nat.le_trans (nestingVals_mem hm) hn
        have hel : elemDesc d = u := by simp [elemDesc, hu]
        rw [e1, hu] at e5
        have huk : u.code.wireKind = .union := by rw [huc]; decide
        have hus : u.code ≠ .Struct := by rw [huc]; decide
        rw [e1, hu, hel]
        match cs, e5 with
        | [.mk b .unionNull], _ =>
          refine ⟨_, emits_congr (fun o => by simp [putElemType, putCells, putDatum, huk, hus]) (emits_putSel be (-1) (by decide)), ?_⟩
          intro f c _
          refine Parses.bind0 (parses_getSel be (-1) (by decide) (by decide)) ?_
          simp only [getUnionElem, Int.le_refl, if_true, choiceOf]
          exact Parses.pure be _
        | [.mk b (.union i w)], e5 =>
          simp only [CellsOK, DatumOK] at e5
          obtain ⟨⟨_, f2, f3, f4⟩, _⟩ := e5
          have hnw : nesting w ≤ n := by
            simp only [nesting, nestingCells, nestingDatum] at hnm; omega
          obtain ⟨bs, bv, e, ps, hi, hch, pv⟩ := codec_union be n H u i w f2 f3 f4 hnw
          refine ⟨_, emits_congr (fun o => by simp [putElemType, putCells, putDatum, huk, hus, hi]) e, ?_⟩
          intro f c hf
          refine Parses.bind ps ?_
          have : ¬ ((i : Int) ≤ -1) := by omega
          simp only [getUnionElem, this, if_false, Int.toNat_natCast, hch, choiceOf]
          exact pv f c (by simp only [nesting, nestingCells, nestingDatum] at hf; omega)
        | [.mk b .null], e5 => simp [CellsOK, DatumOK, huc] at e5
        | [.mk b (.real _)], e5 => simp [CellsOK, DatumOK, huc] at e5
        | [.mk b (.int _)], e5 => simp [CellsOK, DatumOK, huc] at e5
        | [.mk b (.uint _)], e5 => simp [CellsOK, DatumOK, huc] at e5
        | [.mk b (.bool _)], e5 => simp [CellsOK, DatumOK, huc] at e5
        | [.mk b (.str _)], e5 => simp [CellsOK, DatumOK, huc] at e5
        | [.mk b (.any _)], e5 => simp [CellsOK, DatumOK, huc] at e5
        | [.mk b (.pods _)], e5 => simp [CellsOK, DatumOK, huc] at e5
        | [.mk b (.strs _)], e5 => simp [CellsOK, DatumOK, huc] at e5
        | [.mk b (.vals _)], e5 => simp [CellsOK, DatumOK, huc] at e5
        | [], e5 => simp [CellsOK] at e5
        | .mk b x :: .mk b' x' :: cs', e5 => simp [CellsOK] at e5)
      refine ⟨bs, emits_congr (fun o => by simp [putDatum, hk]) e, ?_⟩
      intro f c hf
      simp only [nestingDatum] at hf
      simp only [getDatum, receivedDatum, h1, if_true, receivedChoices_map]
      exact p f c hf
    · have hk : d.code.wireKind = .anys := by rw [h1]; decide
      obtain ⟨bs, e, p⟩ := codec_vals be true (fun f c => getTyped (getVal f) c) received vs hl (by simp [received]) (by
        intro t cs hm
        obtain ⟨bv, ev, pv⟩ := codec_typed be n H t cs (anyElems_mem h2 hm) (Nat.le_trans (nestingVals_mem hm) hn)
        exact ⟨bv, emits_congr (fun o => by simp [putElemType]) ev, pv⟩)
      refine ⟨bs, emits_congr (fun o => by simp [putDatum, hk]) e, ?_⟩
      intro f c hf
      simp only [nestingDatum] at hf
      simp only [getDatum, receivedDatum, h1, receivedVals_map]
      exact p f c hf

theorem codec_cells (be : Bool) (n : Nat) (H : ∀ w, nesting w ≤ n → ValOK w → ValCodec be w) (mark : Bool) :
    ∀ (t : List FieldDesc) (cs : List Cell), CellsOK t cs → nestingCells cs ≤ n →
      ∃ bs, Emits be (putCells t cs) bs ∧
        ∀ f c, nestingCells cs ≤ f → Parses be (getCells (getVal f) mark c t) bs (receivedCells mark t cs, c)
  | [], [], _, _ => ⟨[], emits_congr (fun o => by simp only [putCells]) (Emits.id be),
      fun f c _ => by simp only [getCells, receivedCells]; exact Parses.pure be _⟩
  | [], .mk _ _ :: _, h, _ => by simp only [CellsOK] at h
  | _ :: _, [], h, _ => by simp only [CellsOK] at h
  | d :: t, .mk b x :: cs, h, hn => by
    simp only [CellsOK] at h
    simp only [nestingCells] at hn
    obtain ⟨bs, e, p⟩ := codec_cells be n H mark t cs h.2 (by omega)
    by_cases hs : d.code = .Struct
    · refine ⟨[] ++ bs, emits_congr (fun o => by simp [putCells, hs]) e, ?_⟩
      intro f c hf
      simp only [nestingCells] at hf
      simp only [getCells, receivedCells]
      have hx : receivedDatum d x = .null := by
        cases x <;> simp only [DatumOK, hs] at h <;> simp_all [receivedDatum]
      refine Parses.bind (a := (Cell.mk false .null, c)) ?_ ?_
      · simp only [getCell, hs, if_true]; exact Parses.pure be _
      · have := Parses.map (p f c (by omega)) (fun rs => (Cell.mk false .null :: rs.1, rs.2))
        simpa [hs, hx] using this
    · obtain ⟨bx, ex, px⟩ := codec_datum be n H d x h.1 hs (by omega)
      refine ⟨bx ++ bs, emits_congr (fun o => by simp only [putCells, hs, if_false]) (Emits.comp ex e), ?_⟩
      intro f c hf
      simp only [nestingCells] at hf
      simp only [getCells, receivedCells]
      refine Parses.bind (a := (Cell.mk mark (receivedDatum d x), c)) ?_ ?_
      · simp only [getCell, hs, if_false]
        exact Parses.map (px f c (by omega)) (fun r => (Cell.mk mark r.1, r.2))
      · have := Parses.map (p f c (by omega)) (fun rs => (Cell.mk mark (receivedDatum d x) :: rs.1, rs.2))
        have hb : (mark && d.code != .Struct) = mark := by simp [bne, beq_eq_false_iff_ne.mpr hs]
        rw [hb]; exact this

theorem codec_val (be : Bool) (n : Nat) : ∀ v, nesting v ≤ n → ValOK v → ValCodec be v := by
  induction n with
  | zero =>
    intro v hn h
    cases v with
    | null => simp only [ValOK] at h
    | mk t cs => simp only [nesting] at hn; omega
  | succ n ih =>
    intro v hn h
    cases v with
    | null => simp only [ValOK] at h
    | mk t cs =>
      simp only [nesting] at hn
      simp only [ValOK] at h
      obtain ⟨h1, h2, h3, h4⟩ := h
      obtain ⟨bs, e, p⟩ := codec_cells be n ih (isStruct t) t cs h4 (by omega)
      refine ⟨bs, emits_congr (fun o => by simp only [putVal]) e, ?_⟩
      intro f c hf
      simp only [nesting] at hf
      cases f with
      | zero => omega
      | succ f =>
        refine parses_failIf _ _ ?_ ?_
        · simp [Val.desc, h1, h3]
        · simp only [Val.desc, h2, received]
          exact Parses.map (p f c (by omega)) (fun r => (Val.mk t r.1, r.2))

end Pvxs
