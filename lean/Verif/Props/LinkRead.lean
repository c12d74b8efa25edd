import Verif.Spec.LinkRead
import Verif.Props.RealScalar
namespace Pvxs.Props.LinkRead
open Pvxs Pvxs.LinkRead Pvxs.Spec.LinkRead
open Pvxs.ArrayConv (AType Reals Arr Elems how convertArr convertTo eachRes emptyOf)
open Pvxs.Spec.ArrayConv (Pattern Wraps units one Nearest Each intType realType)
open Pvxs.Spec.Scl (Holds InSigned InUnsigned Says SameMod)
open Pvxs.RealScalar
open Pvxs.Lemmas.Real (nearest_realOfInt narrow_nearest)

/-! ### reads leave the cache alone -/

theorem orFail_keeps {α : Type} (P : Link → Prop) (r : Res α) (x : Link × Result) (f : α → Res (Link × Result))
    (hx : P x.1) (hf : ∀ a l' res, f a = .ok (l', res) → P l') {l' : Link} {res : Result} (h : orFail r x f = .ok (l', res)) : P l' := by
  unfold orFail at h
  cases r with
  | ok a => exact hf a l' res h
  | throws w => simp only [Res.ok.injEq] at h; rw [h] at hx; exact hx
  | ub => cases h

def Same (l l' : Link) : Prop := l'.connected = l.connected ∧ l'.view = l.view ∧ l'.stale = l.stale

theorem read_keeps (R : Reals) (o : Opts) (l : Link) (t : Dbr) (req : Option Int) {l' : Link} {res : Result}
    (h : LinkRead.read R o l t req = .ok (l', res)) : Same l l' := by
  unfold LinkRead.read at h
  split at h
  · injection h with h; injection h with h1; subst h1; exact ⟨rfl, rfl, rfl⟩
  · cases hv : readValue R l t req with
    | none => rw [hv] at h; injection h with h; injection h with h1; subst h1; exact ⟨rfl, rfl, rfl⟩
    | some r =>
      rw [hv] at h
      refine orFail_keeps (Same l) r _ _ ⟨rfl, rfl, rfl⟩ ?_ h
      intro a l1 r1 h1
      refine orFail_keeps (Same l) _ _ _ ⟨rfl, rfl, rfl⟩ ?_ h1
      intro a l1 r1 h1
      refine orFail_keeps (Same l) _ _ _ ⟨rfl, rfl, rfl⟩ ?_ h1
      intro a l1 r1 h1
      refine orFail_keeps (Same l) _ _ _ ⟨rfl, rfl, rfl⟩ ?_ h1
      intro a l1 r1 h1
      injection h1 with h1; injection h1 with h1; subst h1; exact ⟨rfl, rfl, rfl⟩

/-- the link knows what was said last -/
def Knows (l : Link) (v : Option View) : Prop :=
  match v with
  | some w => l.connected = true ∧ l.view = w
  | none => l.connected = false

theorem knows_run (R : Reals) (o : Opts) (es : List Ev) : ∀ (l l' : Link) (v : Option View), Knows l v → run R o l es = .ok l' →
    Knows l' (es.foldl now v) := by
  induction es with
  | nil => intro l l' v h hr; injection hr with hr; subst hr; exact h
  | cons e es ih =>
    intro l l' v h hr
    cases e with
    | item it => cases it <;> exact ih _ _ _ (by first | exact ⟨rfl, rfl⟩ | exact rfl) hr
    | read t req =>
      simp only [run] at hr
      cases hx : read R o l t req with
      | ok p =>
        obtain ⟨l1, res⟩ := p
        rw [hx] at hr
        obtain ⟨k1, k2, k3⟩ := read_keeps R o l t req hx
        refine ih _ _ v ?_ hr
        cases v with
        | none => exact k1.trans h
        | some w => exact ⟨k1.trans h.1, k2.trans h.2⟩
      | throws w => rw [hx] at hr; cases hr
      | ub => rw [hx] at hr; cases hr

theorem knows (R : Reals) (o : Opts) {es : List Ev} {l : Link} (h : run R o {} es = .ok l) : Knows l (current es) :=
  knows_run R o es {} l none rfl h

/-! ### conversions -/

theorem cut_text (s : Str) : Text s (cut s) := by
  unfold Text cut
  have hp : s.takeWhile (fun c => c != 0) <+: s := List.takeWhile_prefix _
  refine ⟨(List.take_prefix _ _).trans hp, ?_, ?_, ?_⟩
  · intro h
    have h2 := List.all_takeWhile (l := s) (p := fun c => c != 0)
    rw [List.all_eq_true] at h2
    have := h2 _ (List.mem_of_mem_take h)
    simp at this
  · rw [List.length_take]; omega
  · intro hl
    rw [List.length_take] at hl
    have h2 : (s.takeWhile fun c => c != 0).length ≤ 39 := by omega
    rw [List.take_of_length_le h2]
    clear h2 hl hp
    induction s with
    | nil => left; rfl
    | cons c s ih =>
      by_cases hc : c = 0
      · subst hc; right; rfl
      · have : ((c != 0) = true) := by simpa using hc
        rw [List.takeWhile_cons, if_pos this]
        rcases ih with h | h
        · left; rw [h]
        · right; simpa using h

theorem asInt_num {d : Datum} {x : Int} (h : Spec.Scl.number d = some x) (hs : Holds d) :
    ∃ r, asInt d = .ok r ∧ SameMod (2 ^ 64) r x := by
  obtain ⟨r, h1, _, h2, _⟩ := Scl.C58_read_signed d x hs h
  refine ⟨r, ?_, h2⟩
  cases d <;> simp only [Spec.Scl.number, reduceCtorEq] at h <;> simp only [asInt, h1] <;> rfl

theorem asUint_num {d : Datum} {x : Int} (h : Spec.Scl.number d = some x) (hs : Holds d) :
    ∃ r : Nat, asUint d = .ok r ∧ SameMod (2 ^ 64) r x ∧ (InUnsigned 8 x → (r : Int) = x) := by
  obtain ⟨r, h1, _, h2, h3⟩ := Scl.C58_read_unsigned d x hs h
  refine ⟨r, ?_, h2, h3⟩
  cases d <;> simp only [Spec.Scl.number, reduceCtorEq] at h <;> simp only [asUint, h1] <;> rfl

/-- what a type of integers makes of a number -/
def bitsOf (a : AType) (v : Int) : Nat :=
  match intType a with
  | some (b, _) => (v % (2 ^ b : Nat)).toNat
  | none => 0

theorem intAs_bits (a : AType) (h : intType a ≠ none) (r x : Int) (hm : SameMod (2 ^ 64) r x) : IntAs a x (bitsOf a r) := by
  obtain ⟨k, hk⟩ := hm
  cases a <;> simp [intType] at h
  case i8 =>
    rw [show bitsOf .i8 r = (r % ((2 ^ 8 : Nat) : Int)).toNat from rfl]
    have hlt : (r % ((2 ^ 8 : Nat) : Int)).toNat < 2 ^ 8 := by omega
    refine ⟨hlt, ?_⟩
    simp only [Spec.ArrayConv.number, intType, Wraps]
    refine ⟨_, rfl, ?_⟩
    split
    · exact ⟨k * 72057594037927936 - r / 256, by omega⟩
    · exact ⟨k * 72057594037927936 - r / 256 - 1, by omega⟩
  case i16 =>
    rw [show bitsOf .i16 r = (r % ((2 ^ 16 : Nat) : Int)).toNat from rfl]
    have hlt : (r % ((2 ^ 16 : Nat) : Int)).toNat < 2 ^ 16 := by omega
    refine ⟨hlt, ?_⟩
    simp only [Spec.ArrayConv.number, intType, Wraps]
    refine ⟨_, rfl, ?_⟩
    split
    · exact ⟨k * 281474976710656 - r / 65536, by omega⟩
    · exact ⟨k * 281474976710656 - r / 65536 - 1, by omega⟩
  case i32 =>
    rw [show bitsOf .i32 r = (r % ((2 ^ 32 : Nat) : Int)).toNat from rfl]
    have hlt : (r % ((2 ^ 32 : Nat) : Int)).toNat < 2 ^ 32 := by omega
    refine ⟨hlt, ?_⟩
    simp only [Spec.ArrayConv.number, intType, Wraps]
    refine ⟨_, rfl, ?_⟩
    split
    · exact ⟨k * 4294967296 - r / 4294967296, by omega⟩
    · exact ⟨k * 4294967296 - r / 4294967296 - 1, by omega⟩
  case i64 =>
    rw [show bitsOf .i64 r = (r % ((2 ^ 64 : Nat) : Int)).toNat from rfl]
    have hlt : (r % ((2 ^ 64 : Nat) : Int)).toNat < 2 ^ 64 := by omega
    refine ⟨hlt, ?_⟩
    simp only [Spec.ArrayConv.number, intType, Wraps]
    refine ⟨_, rfl, ?_⟩
    split
    · exact ⟨k * 1 - r / 18446744073709551616, by omega⟩
    · exact ⟨k * 1 - r / 18446744073709551616 - 1, by omega⟩
  case u8 =>
    rw [show bitsOf .u8 r = (r % ((2 ^ 8 : Nat) : Int)).toNat from rfl]
    have hlt : (r % ((2 ^ 8 : Nat) : Int)).toNat < 2 ^ 8 := by omega
    refine ⟨hlt, ?_⟩
    exact ⟨_, rfl, k * 72057594037927936 - r / 256, by omega⟩
  case u16 =>
    rw [show bitsOf .u16 r = (r % ((2 ^ 16 : Nat) : Int)).toNat from rfl]
    have hlt : (r % ((2 ^ 16 : Nat) : Int)).toNat < 2 ^ 16 := by omega
    refine ⟨hlt, ?_⟩
    exact ⟨_, rfl, k * 281474976710656 - r / 65536, by omega⟩
  case u32 =>
    rw [show bitsOf .u32 r = (r % ((2 ^ 32 : Nat) : Int)).toNat from rfl]
    have hlt : (r % ((2 ^ 32 : Nat) : Int)).toNat < 2 ^ 32 := by omega
    refine ⟨hlt, ?_⟩
    exact ⟨_, rfl, k * 4294967296 - r / 4294967296, by omega⟩
  case u64 =>
    rw [show bitsOf .u64 r = (r % ((2 ^ 64 : Nat) : Int)).toNat from rfl]
    have hlt : (r % ((2 ^ 64 : Nat) : Int)).toNat < 2 ^ 64 := by omega
    refine ⟨hlt, ?_⟩
    exact ⟨_, rfl, k * 1 - r / 18446744073709551616, by omega⟩

/-- the number which is cast to an integer type has been read as a signed or unsigned one -/
theorem readScalar_int (R : Reals) (d : Datum) (x : Int) (t : Dbr) (a : AType) (ha : numbers t = some a) (b : Nat) (sg : Bool)
    (hi : intType a = some (b, sg))
    (h1 : sg = true → ∃ r, asInt d = .ok r ∧ SameMod (2 ^ 64) r x) (h2 : sg = false → ∃ r : Nat, asUint d = .ok r ∧ SameMod (2 ^ 64) r x) :
    ∃ y, IntAs a x y ∧ readScalar R d t = some (.ok (.pods [y])) := by
  have key := fun a hi r m1 => intAs_bits a hi r x m1
  cases t <;> simp only [numbers, Option.some.injEq, reduceCtorEq] at ha <;> subst ha <;>
    simp only [intType, Option.some.injEq, Prod.mk.injEq, reduceCtorEq] at hi <;> obtain ⟨rfl, rfl⟩ := hi
  case char => obtain ⟨r, e1, m1⟩ := h1 rfl; exact ⟨_, key .i8 (by simp [intType]) r m1, by simp only [readScalar, e1]; rfl⟩
  case short => obtain ⟨r, e1, m1⟩ := h1 rfl; exact ⟨_, key .i16 (by simp [intType]) r m1, by simp only [readScalar, e1]; rfl⟩
  case long => obtain ⟨r, e1, m1⟩ := h1 rfl; exact ⟨_, key .i32 (by simp [intType]) r m1, by simp only [readScalar, e1]; rfl⟩
  case int64 => obtain ⟨r, e1, m1⟩ := h1 rfl; exact ⟨_, key .i64 (by simp [intType]) r m1, by simp only [readScalar, e1]; rfl⟩
  case uchar => obtain ⟨r, e1, m1⟩ := h2 rfl; exact ⟨_, key .u8 (by simp [intType]) r m1, by simp only [readScalar, e1]; rfl⟩
  case ushort => obtain ⟨r, e1, m1⟩ := h2 rfl; exact ⟨_, key .u16 (by simp [intType]) r m1, by simp only [readScalar, e1]; rfl⟩
  case ulong => obtain ⟨r, e1, m1⟩ := h2 rfl; exact ⟨_, key .u32 (by simp [intType]) r m1, by simp only [readScalar, e1]; rfl⟩
  case uint64 => obtain ⟨r, e1, m1⟩ := h2 rfl; exact ⟨_, key .u64 (by simp [intType]) r m1, by simp only [readScalar, e1]; rfl⟩

theorem readEnum_int (i : Int) (cs : List Str) (t : Dbr) (a : AType) (ha : numbers t = some a) (hi : intType a ≠ none) :
    ∃ y, IntAs a i y ∧ readEnum i cs t = some (.ok (.pods [y])) := by
  have key := fun a hi => intAs_bits a hi i i ⟨0, by simp⟩
  cases t <;> simp only [numbers, Option.some.injEq, reduceCtorEq] at ha <;> subst ha <;> simp [intType] at hi
  case char => exact ⟨_, key .i8 (by simp [intType]), rfl⟩
  case short => exact ⟨_, key .i16 (by simp [intType]), rfl⟩
  case long => exact ⟨_, key .i32 (by simp [intType]), rfl⟩
  case int64 => exact ⟨_, key .i64 (by simp [intType]), rfl⟩
  case uchar => exact ⟨_, key .u8 (by simp [intType]), rfl⟩
  case ushort => exact ⟨_, key .u16 (by simp [intType]), rfl⟩
  case ulong => exact ⟨_, key .u32 (by simp [intType]), rfl⟩
  case uint64 => exact ⟨_, key .u64 (by simp [intType]), rfl⟩

theorem readEnum_real (i : Int) (cs : List Str) (t : Dbr) (a : AType) (p : Nat × Nat) (ha : numbers t = some a) (hp : realType a = some p) (hi : i.natAbs < 2 ^ 31) :
    ∃ mb eb y, realType a = some (mb, eb) ∧ Nearest mb eb y i 1 ∧ readEnum i cs t = some (.ok (.pods [y])) := by
  have hl : i.natAbs.log2 ≤ 30 := by
    rcases Nat.eq_zero_or_pos i.natAbs with h | h
    · rw [h]; decide
    · have := (Nat.log2_lt (by omega : i.natAbs ≠ 0)).2 hi
      omega
  cases t <;> simp only [numbers, Option.some.injEq, reduceCtorEq] at ha <;> subst ha <;> simp [realType] at hp
  case float => exact ⟨23, 8, _, rfl, nearest_realOfInt 23 8 127 i (by decide) (by decide) (by omega), rfl⟩
  case double => exact ⟨52, 11, _, rfl, nearest_realOfInt 52 11 1023 i (by decide) (by decide) (by omega), rfl⟩

theorem eachRes_take {α β : Type} (f : α → Res β) (xs : List α) (ys : List β) (h : eachRes f xs = .ok ys) (k : Nat) :
    eachRes f (xs.take k) = .ok (ys.take k) := by
  induction xs generalizing ys k with
  | nil => simp only [eachRes, Res.ok.injEq] at h; subst h; simp [eachRes]
  | cons x xs ih =>
    simp only [eachRes] at h
    cases hx : f x with
    | ok y =>
      rw [hx] at h
      simp only [Res.bind_ok] at h
      cases hr : eachRes f xs with
      | ok r =>
        rw [hr] at h
        simp only [Res.bind_ok, Res.ok.injEq] at h
        subst h
        cases k with
        | zero => rfl
        | succ k => simp only [List.take_succ_cons, eachRes, hx, ih r hr k, Res.bind_ok]
      | throws w => rw [hr] at h; cases h
      | ub => rw [hr] at h; cases h
    | throws w => rw [hx] at h; cases h
    | ub => rw [hx] at h; cases h

theorem size_take (k : Nat) (x : Elems) : (takeElems k x).size = min k x.size := by
  cases x <;> simp [takeElems, Elems.size]

theorem convertArr_size (R : Reals) (d s : AType) (x : Elems) (ys : List Nat) (h : convertArr R d s x = .ok (.pods ys)) : ys.length = x.size := by
  have each : ∀ {α β : Type} (f : α → Res β) (xs : List α) (ys : List β), eachRes f xs = .ok ys → ys.length = xs.length := by
    intro α β f xs
    induction xs with
    | nil => intro ys h; simp only [eachRes, Res.ok.injEq] at h; subst h; rfl
    | cons x xs ih =>
      intro ys h
      simp only [eachRes] at h
      cases hx : f x with
      | ok y =>
        rw [hx] at h
        simp only [Res.bind_ok] at h
        cases hr : eachRes f xs with
        | ok r => rw [hr] at h; simp only [Res.bind_ok, Res.ok.injEq] at h; subst h; simp [ih r hr]
        | throws w => rw [hr] at h; cases h
        | ub => rw [hr] at h; cases h
      | throws w => rw [hx] at h; cases h
      | ub => rw [hx] at h; cases h
  unfold convertArr at h
  split at h
  · rename_i h0
    rw [h0]
    cases d <;> simp only [emptyOf, Res.ok.injEq, Elems.pods.injEq, reduceCtorEq] at h <;> subst h <;> rfl
  · cases hh : how s d <;> cases x <;> rw [hh] at h <;> simp only [Res.ok.injEq, Elems.pods.injEq, reduceCtorEq] at h
    · subst h; rfl
    · rename_i a b xs _
      cases hr : eachRes (ArrayConv.castOne a b) xs with
      | ok r => rw [hr] at h; simp only [Res.bind_ok, Res.ok.injEq, Elems.pods.injEq] at h; subst h; exact each _ _ _ hr
      | throws w => rw [hr] at h; cases h
      | ub => rw [hr] at h; cases h
    · rename_i b ss _
      cases hr : eachRes (ArrayConv.parseOne R b) ss with
      | ok r => rw [hr] at h; simp only [Res.bind_ok, Res.ok.injEq, Elems.pods.injEq] at h; subst h; exact each _ _ _ hr
      | throws w => rw [hr] at h; cases h
      | ub => rw [hr] at h; cases h

theorem convertArr_take (R : Reals) (d s : AType) (hd : d ≠ .str ∧ d ≠ .value) (x : Elems) (ys : List Nat)
    (h : convertArr R d s x = .ok (.pods ys)) (k : Nat) : convertArr R d s (takeElems k x) = .ok (.pods (ys.take k)) := by
  have hsz := convertArr_size R d s x ys h
  by_cases h0 : (takeElems k x).size = 0
  · have h1 : ys.take k = [] := by
      rw [size_take] at h0
      apply List.eq_nil_of_length_eq_zero
      rw [List.length_take, hsz]; exact h0
    rw [h1]
    unfold convertArr
    rw [if_pos h0]
    cases d <;> simp_all [emptyOf]
  · have hx0 : ¬ x.size = 0 := by rw [size_take] at h0; omega
    unfold convertArr at h ⊢
    rw [if_neg h0]
    rw [if_neg hx0] at h
    cases hh : how s d <;> cases x <;> rw [hh] at h <;> simp only [takeElems] <;> simp only [Res.ok.injEq, Elems.pods.injEq, reduceCtorEq] at h
    · subst h; rfl
    · rename_i a b xs
      cases hr : eachRes (ArrayConv.castOne a b) xs with
      | ok r =>
        rw [hr] at h; simp only [Res.bind_ok, Res.ok.injEq, Elems.pods.injEq] at h; subst h
        simp only [eachRes_take _ _ _ hr k, Res.bind_ok]
      | throws w => rw [hr] at h; cases h
      | ub => rw [hr] at h; cases h
    · rename_i b ss
      cases hr : eachRes (ArrayConv.parseOne R b) ss with
      | ok r =>
        rw [hr] at h; simp only [Res.bind_ok, Res.ok.injEq, Elems.pods.injEq] at h; subst h
        simp only [eachRes_take _ _ _ hr k, Res.bind_ok]
      | throws w => rw [hr] at h; cases h
      | ub => rw [hr] at h; cases h

theorem numbers_array (t : Dbr) : t.array = numbers t := by cases t <;> rfl

theorem readArray_shows (R : Reals) (ar : Arr) (a : AType) (ys : List Nat) (t : Dbr) (ht : numbers t = some a)
    (h : convertTo R a ar = .ok ⟨a, .pods ys⟩) (n : Nat) :
    readArray R ar (min n ar.elems.size) t = some (.ok (.pods (ys.take n))) ∧ ys.length = ar.elems.size := by
  have hns : t ≠ .string := fun e => by subst e; cases ht
  have hd : (a ≠ .str ∧ a ≠ .value) ∧ how a a = .copy := by
    cases t <;> simp only [numbers, Option.some.injEq, reduceCtorEq] at ht <;> subst ht <;> decide
  have hconv : convertArr R a ar.type ar.elems = .ok (.pods ys) := by
    unfold convertTo at h
    split at h
    · rename_i he
      simp only [Res.ok.injEq] at h
      subst h
      show convertArr R a a (.pods ys) = _
      unfold convertArr
      split
      · rename_i h0
        have : ys = [] := List.eq_nil_of_length_eq_zero h0
        subst this
        cases a <;> first | rfl | exact absurd rfl hd.1.1 | exact absurd rfl hd.1.2
      · rw [hd.2]
    · cases hc : convertArr R a ar.type ar.elems with
      | ok r => rw [hc] at h; simp only [Res.bind_ok, Res.ok.injEq, Arr.mk.injEq, true_and] at h; rw [h]
      | throws w => rw [hc] at h; cases h
      | ub => rw [hc] at h; cases h
  have hsz := convertArr_size R a _ _ ys hconv
  refine ⟨?_, hsz⟩
  unfold readArray
  rw [if_neg hns, numbers_array, ht]
  simp only [convertArr_take R a _ hd.1 _ _ hconv]
  have : ys.take (min n ar.elems.size) = ys.take n := by
    rw [← hsz, Nat.min_comm, ← List.take_take]
    exact List.take_of_length_le (by rw [List.length_take]; omega)
  rw [this]
  rfl

theorem each_map {α β : Type} (P : α → β → Prop) (f : α → β) (h : ∀ x, P x (f x)) (xs : List α) : Each P xs (xs.map f) := by
  refine ⟨by simp, ?_⟩
  intro i x y hx hy
  rw [List.getElem?_map, hx] at hy
  simp only [Option.map_some, Option.some.injEq] at hy
  subst hy
  exact h x

/-- the value is shown -/
theorem readValue_shows (R : Reals) (l : Link) (t : Dbr) (v : V) (n : Nat) (req : Option Int) (hv : l.view.value = some v) (hn : 0 < n)
    (hreq : req = some (n : Int) ∨ (req = none ∧ n = 1)) (hr : Readable R v t) :
    ∃ buf k, Shows R v t n buf k ∧ readValue R l t req = some (.ok (buf, (k : Int))) := by
  have hg : req.getD 1 = (n : Int) := by rcases hreq with rfl | ⟨rfl, rfl⟩ <;> rfl
  have hpos : ¬ ((n : Int) ≤ 0) := by omega
  have base : ∀ (c : AType) (d : Datum), v = .scalar c d → ∀ buf, readScalar R d t = some (.ok buf) → readValue R l t req = some (.ok (buf, 1)) := by
    intro c d hvd buf hb
    unfold readValue
    simp only [hv, hg, if_neg hpos, hvd, hb]
    rfl
  have based : ∀ i cs, v = .enum i cs → ∀ buf, readEnum i cs t = some (.ok buf) → readValue R l t req = some (.ok (buf, 1)) := by
    intro i cs hvd buf hb
    unfold readValue
    simp only [hv, hg, if_neg hpos, hvd, hb]
    rfl
  cases hr with
  | @int c d x _ a h1 h2 h3 h4 =>
    cases hi : intType a with
    | none => exact absurd hi h4
    | some p =>
      obtain ⟨y, k1, k2⟩ := readScalar_int R d x t a h3 p.1 p.2 hi (fun _ => asInt_num h1 h2)
        (fun _ => by obtain ⟨r, q1, q2, _⟩ := asUint_num h1 h2; exact ⟨r, q1, q2⟩)
      exact ⟨_, _, .int h1 h3 k1, base c d rfl _ k2⟩
  | @trunc c b u _ a w sg h1 h2 h3 h4 =>
    obtain ⟨q1, q2⟩ := Pvxs.Props.RealScalar.C83_read_int b u h1
    obtain ⟨y, k1, k2⟩ := readScalar_int R (.real b) (u.tdiv (one 52 11)) t a h2 w sg h3
      (fun hs => by
        subst hs
        exact ⟨_, by simp only [asInt, q1 h4]; rfl, ⟨0, by simp⟩⟩)
      (fun hs => by
        subst hs
        obtain ⟨m, e1, e2⟩ := q2 h4
        exact ⟨m, by simp only [asUint, e1]; rfl, ⟨0, by rw [e2]; simp⟩⟩)
    exact ⟨_, _, .trunc h1 h2 k1, base c _ rfl _ k2⟩
  | @double c d x h1 h2 =>
    obtain ⟨y, e1, _, e2, _⟩ := Pvxs.Props.RealScalar.C83_to_double R.parse d x h2 h1
    exact ⟨_, _, .double h1 e2, base c d rfl _ (by simp only [readScalar, e1]; rfl)⟩
  | @same c b => exact ⟨_, _, .same, base c _ rfl _ rfl⟩
  | @text c s => exact ⟨_, _, .text (cut_text s), base c _ rfl _ rfl⟩
  | @digits c d x h1 h2 =>
    obtain ⟨s, e1, _, e2⟩ := Scl.C58_print d x h2 h1
    refine ⟨_, _, .digits h1 e2 (cut_text s), base c d rfl _ ?_⟩
    cases d <;> simp only [Spec.Scl.number, reduceCtorEq] at h1 <;> simp only [readScalar, asStr, e1] <;> rfl
  | @array a ar ys _ h1 h2 =>
    obtain ⟨k1, k2⟩ := readArray_shows R ar a ys t h1 h2 n
    refine ⟨_, _, .array h1 h2, ?_⟩
    unfold readValue
    simp only [hv, hg, if_neg hpos, Int.toNat_natCast, k1, k2]
    rfl
  | @strings ss =>
    refine ⟨_, _, .strings (each_map Text cut cut_text (ss.take n)), ?_⟩
    unfold readValue
    simp only [hv, hg, if_neg hpos, Int.toNat_natCast, readArray, Elems.size]
    have : ss.take (min n ss.length) = ss.take n := by
      rw [Nat.min_comm, ← List.take_take]
      exact List.take_of_length_le (by rw [List.length_take]; omega)
    simp only [if_true, this]
    rfl
  | @float c d x h1 h2 h3 =>
    obtain ⟨f, e1, e2⟩ := Pvxs.Props.RealScalar.narrow_read R.parse d x h2 h1 h3
    exact ⟨_, _, .float h1 e2, base c d rfl _ (by simp only [readScalar, e1]; rfl)⟩
  | @narrow c b u h1 h2 =>
    rcases narrow_nearest b h1 with e | ⟨_, e⟩
    · exact ⟨_, _, .narrow h1 e, base c _ rfl _ rfl⟩
    · exact absurd e (Nat.not_le.2 h2)
  | @realIndex i cs _ a p h1 h2 h3 =>
    obtain ⟨mb, eb, y, q0, q1, q2⟩ := readEnum_real i cs t a p h1 h2 h3
    exact ⟨_, _, .realIndex h1 q0 q1, based i cs rfl _ q2⟩
  | @index i cs _ a h1 h2 =>
    obtain ⟨y, k1, k2⟩ := readEnum_int i cs t a h1 h2
    exact ⟨_, _, .index h1 k1, based i cs rfl _ k2⟩
  | @choice i cs s h1 =>
    refine ⟨_, _, .choice h1 (cut_text s), based i cs rfl _ ?_⟩
    simp [readEnum, choiceText, h1]

/-! ### time and alarm -/

theorem asUint_small {d : Datum} {x : Int} (h : IsNum d x) (h0 : 0 ≤ x) (h1 : x < 2 ^ 32) : asUint d = .ok x.toNat := by
  obtain ⟨r, e, _, hx⟩ := asUint_num h.1 h.2
  have := hx ⟨h0, by show x < ((256 ^ 8 : Nat) : Int); omega⟩
  rw [e, ← this]; rfl

theorem snapTime_is (l : Link) (st : Stamp) (h : TimeIs l.seconds l.view.nanos st) : snapTime l = .ok st := by
  obtain ⟨⟨d, s, e1, e2, e3, e4, e5⟩, h2⟩ := h
  unfold snapTime
  rw [e1]
  simp only [asUint_small e2 (by omega) e4]
  have hs : intBits 4 ((s.toNat % 2 ^ 32 : Nat) - (epoch : Int)) = st.sec := by
    unfold intBits epoch
    have : ((256 ^ 4 : Nat) : Int) = 4294967296 := rfl
    rw [this]; omega
  have hb : ∀ (α : Type) (n : Nat) (f : Nat → Res α), (Res.ok n).bind f = f n := fun _ _ _ => rfl
  rw [hb, hs]
  rcases h2 with ⟨n1, n2⟩ | ⟨d, m, n1, n2, n3, n4, n5⟩
  · rw [n1]; simp only [← n2]
  · rw [n1]
    simp only [asUint_small n2 n3 n4, hb]
    have : m.toNat % 2 ^ 32 = st.nsec := by omega
    rw [this]

theorem snapSeverity_is (l : Link) (k : Int) (h : (l.view.severity = none ∧ k = 0) ∨ ∃ d, l.view.severity = some d ∧ IsNum d k ∧ 0 ≤ k ∧ k ≤ 3) :
    snapSeverity l = .ok k := by
  unfold snapSeverity
  rcases h with ⟨h1, h2⟩ | ⟨d, h1, h2, h3, h4⟩
  · rw [h1, h2]
  · rw [h1]
    simp only [asUint_small h2 h3 (by omega)]
    show Res.ok (intOf 2 (k.toNat % 2 ^ 16)) = _
    unfold intOf
    rw [if_pos (by show 2 * (k.toNat % 2 ^ 16) < 65536; omega)]
    congr 1; omega

theorem snapMessage_is (l : Link) (k : Int) (m : Str)
    (h : (k = 0 ∧ m = []) ∨ (k ≠ 0 ∧ ((l.view.message = none ∧ m = []) ∨ l.view.message = some (.str m)))) : snapMessage l k = .ok m := by
  unfold snapMessage
  rcases h with ⟨h1, h2⟩ | ⟨h1, ⟨h2, h3⟩ | h2⟩
  · subst h1 h2; cases l.view.message <;> simp
  · rw [h2, h3]
  · rw [h2]; simp only [if_neg h1]; rfl

theorem raise_applied (o : Opts) (k : Int) : raise o k = applied o k := by
  unfold raise applied
  cases o.ms with
  | nms => simp
  | ms => by_cases h : k = 0 <;> simp [h]
  | msi => by_cases h : k = 3 <;> simp [h]

/-! ### what holds -/

/-- C88: while connected, if the selected field is a structure with a value and a time stamp, a read gives the
value, alarm and time of the last update; alarm and time are those which the link then reports. Missing:
the other cases, see below. -/
theorem C88_read_partial (R : Reals) (o : Opts) (es : List Ev) (l : Link) (hrun : run R o {} es = .ok l) (v : V) (sec ns sev msg tag : Option Datum)
    (hc : current es = some (.struct (some v) sec ns sev msg tag)) (st : Stamp) (hst : TimeIs sec ns st) (k : Int) (m : Str) (ha : AlarmIs sev msg k m)
    (t : Dbr) (hr : Readable R v t) (n : Nat) (hn : 0 < n) (req : Option Int) (hreq : req = some (n : Int) ∨ (req = none ∧ n = 1)) :
    ∃ l' buf c, Shows R v t n buf c ∧
      LinkRead.read R o l t req = .ok (l', { rc := .ok, buf := buf, n := req.map fun _ => (c : Int), alarm := applied o k, time := if o.time then some st else none }) ∧
      alarmOf l' = some (k, m) ∧ (timeOf l').map Prod.fst = some st := by
  have hk := knows R o hrun
  rw [hc] at hk
  obtain ⟨k1, k2⟩ := hk
  have hv : l.view.value = some v := by rw [k2]; rfl
  obtain ⟨buf, c, s1, s2⟩ := readValue_shows R l t v n req hv hn hreq hr
  have ht := snapTime_is l st (by unfold Link.seconds; rw [k2]; exact hst)
  have hs := snapSeverity_is { l with time := st } k (by show (l.view.severity = _ ∧ _) ∨ _; rw [k2]; exact ha.1)
  have hm := snapMessage_is { l with time := st, severity := k } k m (by
    show _ ∨ (_ ∧ ((l.view.message = _ ∧ _) ∨ l.view.message = _)); rw [k2]; exact ha.2)
  refine ⟨{ l with time := st, severity := k, message := m }, buf, c, s1, ?_, ?_, ?_⟩
  · unfold LinkRead.read
    rw [if_neg (by rw [k1]; decide), s2]
    simp only [orFail, ht, hs, hm, raise_applied]
  · simp [alarmOf, k1]
  · simp [timeOf, k1]

/-- C88: after this, further updates do not change the alarm and time which the link reports, until the value is
read again: they belong to the same update. -/
theorem C88_together (l : Link) (hc : l.connected = true) (vs : List View) (R : Reals) (o : Opts) :
    ∃ l', run R o l (vs.map fun v => .item (.update v)) = .ok l' ∧ alarmOf l' = alarmOf l ∧ timeOf l' = timeOf l := by
  induction vs generalizing l with
  | nil => exact ⟨l, rfl, rfl, rfl⟩
  | cons v vs ih =>
    obtain ⟨l', h1, h2, h3⟩ := ih (take l (.update v)) rfl
    exact ⟨l', h1, by rw [h2]; simp [alarmOf, take, hc], by rw [h3]; simp [timeOf, take, hc]⟩

/-- no field was a structure -/
def PlainSo (es : List Ev) : Prop := ∀ v a b c d f, .item (.update (.struct v a b c d f)) ∉ es

theorem stale_none (R : Reals) (o : Opts) (es : List Ev) : ∀ (l l' : Link), PlainSo es → l.seconds = none → l.stale = none → run R o l es = .ok l' →
    l'.seconds = none := by
  induction es with
  | nil => intro l l' _ h _ hr; injection hr with hr; subst hr; exact h
  | cons e es ih =>
    intro l l' hp h hs hr
    have hp' : PlainSo es := fun v a b c d f hm => hp v a b c d f (List.mem_cons_of_mem _ hm)
    cases e with
    | item it =>
      cases it with
      | update v =>
        have hsec : (take l (.update v)).seconds = none := by
          cases v with
          | missing => exact h
          | plain v => exact h
          | struct v a b c d f => exact absurd (List.mem_cons_self) (hp v a b c d f)
        exact ih _ _ hp' hsec h hr
      | disconnect t => exact ih (take l (.disconnect t)) _ hp' h hs hr
    | read t req =>
      simp only [run] at hr
      cases hx : LinkRead.read R o l t req with
      | ok p =>
        obtain ⟨l1, res⟩ := p
        rw [hx] at hr
        obtain ⟨k1, k2, k3⟩ := read_keeps R o l t req hx
        refine ih _ _ hp' ?_ (k3.trans hs) hr
        unfold Link.seconds at h ⊢
        rw [k2, k3]; exact h
      | throws w => rw [hx] at hr; cases hr
      | ub => rw [hx] at hr; cases hr

/-- C88: a field which is not a structure (and never was): the value of the last update, no alarm. Missing:
with the option `time`, see C88_no_time. -/
theorem C88_plain_partial (R : Reals) (o : Opts) (ho : o.time = false) (es : List Ev) (l : Link) (hrun : run R o {} es = .ok l) (hp : PlainSo es) (v : V)
    (hc : current es = some (.plain v)) (t : Dbr) (hr : Readable R v t) (n : Nat) (hn : 0 < n) (req : Option Int)
    (hreq : req = some (n : Int) ∨ (req = none ∧ n = 1)) :
    ∃ l' buf c, Shows R v t n buf c ∧ LinkRead.read R o l t req = .ok (l', { rc := .ok, buf := buf, n := req.map fun _ => (c : Int) }) ∧
      alarmOf l' = some (0, []) := by
  have hk := knows R o hrun
  rw [hc] at hk
  obtain ⟨k1, k2⟩ := hk
  obtain ⟨buf, c, s1, s2⟩ := readValue_shows R l t v n req (by rw [k2]; rfl) hn hreq hr
  have hsec := stale_none R o es {} l hp rfl rfl hrun
  refine ⟨{ l with time := {}, severity := 0, message := [] }, buf, c, s1, ?_, ?_⟩
  · unfold LinkRead.read
    rw [k1, s2]
    simp only [orFail, snapTime, hsec, snapSeverity, snapMessage, k2, View.severity, View.message, raise_applied, ho]
    have : applied o 0 = none := by unfold applied; cases o.ms <;> rfl
    rw [this]
    rfl
  · simp [alarmOf, k1]

/-- C88: while not connected: an alarm, INVALID. Missing: the value, see C88_no_value. -/
theorem C88_disconnected_partial (R : Reals) (o : Opts) (es : List Ev) (l : Link) (hrun : run R o {} es = .ok l) (hc : current es = none)
    (t : Dbr) (req : Option Int) :
    ∃ res, LinkRead.read R o l t req = .ok (l, res) ∧ res.rc = .fail ∧ res.alarm = some 3 ∧ alarmOf l = none ∧ timeOf l = none := by
  have hk : l.connected = false := by have := knows R o hrun; rw [hc] at this; exact this
  refine ⟨_, by unfold LinkRead.read; rw [hk]; rfl, rfl, rfl, by simp [alarmOf, hk], by simp [timeOf, hk]⟩

/-- C88: a read which succeeds shows something of the last update: it is connected. -/
theorem C88_ok_connected (R : Reals) (o : Opts) (es : List Ev) (l l' : Link) (res : Result) (hrun : run R o {} es = .ok l) (t : Dbr) (req : Option Int)
    (h : LinkRead.read R o l t req = .ok (l', res)) (hok : res.rc = .ok) : ∃ v, current es = some v := by
  cases hc : current es with
  | some v => exact ⟨v, rfl⟩
  | none =>
    obtain ⟨r, h1, h2, _⟩ := C88_disconnected_partial R o es l hrun hc t req
    rw [h1] at h
    injection h with h; injection h with h3 h4
    subst h4
    rw [h2] at hok; cases hok

/-! ### what does not hold -/

/-- a time stamp in 2021, severity MAJOR -/
def doc (v : Datum) : View := .struct (some (.scalar .f64 v)) (some (.int 1609459200)) (some (.int 7)) (some (.int 2)) (some (.str [0x68, 0x69])) (some (.int 5))

/-- Contrary to the documentation ("While disconnected, a link will read the most recent value/time"): no value. -/
theorem C88_no_value (R : Reals) (t : Dbr) (req : Option Int) (b : Nat) :
    ∃ l res, run R {} {} [.item (.update (doc (.real b))), .item (.disconnect ⟨9, 9⟩)] = .ok l ∧
      LinkRead.read R {} l t req = .ok (l, res) ∧ res.rc = .fail ∧ res.buf = .none := by
  refine ⟨_, _, rfl, rfl, rfl, rfl⟩

/-- If the link has no such field then a read of several elements succeeds: it says that all of them were written,
but none was. -/
theorem C88_missing (R : Reals) (o : Opts) (n : Int) (t : Dbr) :
    ∃ l l' res, run R o {} [.item (.update .missing)] = .ok l ∧ LinkRead.read R o l t (some n) = .ok (l', res) ∧
      res.rc = .ok ∧ res.buf = .none ∧ res.n = some n := by
  refine ⟨_, _, _, rfl, rfl, rfl, rfl, rfl⟩

/-- A new type without time stamp: the time is still that of the earlier type. -/
theorem C88_stale_time (R : Reals) (b : Nat) (v : Int) :
    ∃ l l' res, run R { time := true } {} [.item (.update (doc (.real b))), .item (.disconnect ⟨1000000000, 0⟩),
        .item (.update (.plain (.scalar .i32 (.int v))))] = .ok l ∧
      LinkRead.read R { time := true } l .int64 none = .ok (l', res) ∧ res.rc = .ok ∧ res.time = some ⟨978307200, 0⟩ := by
  refine ⟨_, _, _, rfl, rfl, rfl, rfl⟩

/-- No time stamp: with the option `time` the record is given the time 0, which is in 1990. -/
theorem C88_no_time (R : Reals) (v : Int) :
    ∃ l l' res, run R { time := true } {} [.item (.update (.plain (.scalar .i32 (.int v))))] = .ok l ∧
      LinkRead.read R { time := true } l .int64 none = .ok (l', res) ∧ res.rc = .ok ∧ res.time = some ⟨0, 0⟩ := by
  refine ⟨_, _, _, rfl, rfl, rfl, rfl⟩

/-- A time before 1990 (a server which has none sends 0) is shown as one far in the future. -/
theorem C88_before_1990 (R : Reals) (v : Int) :
    ∃ l l' res, run R { time := true } {} [.item (.update (.struct (some (.scalar .i32 (.int v))) (some (.int 0)) (some (.int 0)) none none none))] = .ok l ∧
      LinkRead.read R { time := true } l .int64 none = .ok (l', res) ∧ res.rc = .ok ∧ res.time = some ⟨4294967296 - 631152000, 0⟩ := by
  refine ⟨_, _, _, rfl, rfl, rfl, rfl⟩

/-- The user tag is never that of the update: it is 0. -/
theorem C88_tag (R : Reals) (o : Opts) (es : List Ev) (l : Link) (st : Stamp) (g : Nat) (hrun : run R o {} es = .ok l) (h : timeOf l = some (st, g)) : g = 0 := by
  have key : ∀ (es : List Ev) (l l' : Link), l.tag = 0 → run R o l es = .ok l' → l'.tag = 0 := by
    intro es
    induction es with
    | nil => intro l l' h hr; injection hr with hr; subst hr; exact h
    | cons e es ih =>
      intro l l' h hr
      cases e with
      | item it => exact ih (take l it) _ (by cases it <;> exact h) hr
      | read t req =>
        simp only [run] at hr
        cases hx : LinkRead.read R o l t req with
        | ok p =>
          rw [hx] at hr
          refine ih _ _ ?_ hr
          have : ∀ {l' res}, LinkRead.read R o l t req = .ok (l', res) → l'.tag = 0 := by
            intro l' res h1
            unfold LinkRead.read at h1
            split at h1
            · injection h1 with h1; injection h1 with h1; subst h1; exact h
            · cases hv : readValue R l t req with
              | none => rw [hv] at h1; injection h1 with h1; injection h1 with h1; subst h1; exact h
              | some r =>
                rw [hv] at h1
                refine orFail_keeps (fun x => x.tag = 0) r _ _ h ?_ h1
                intro a l1 r1 h1
                refine orFail_keeps (fun x => x.tag = 0) _ _ _ h ?_ h1
                intro a l1 r1 h1
                refine orFail_keeps (fun x => x.tag = 0) _ _ _ h ?_ h1
                intro a l1 r1 h1
                refine orFail_keeps (fun x => x.tag = 0) _ _ _ h ?_ h1
                intro a l1 r1 h1
                injection h1 with h1; injection h1 with h1; subst h1; exact h
          exact this hx
        | throws w => rw [hx] at hr; cases hr
        | ub => rw [hx] at hr; cases hr
  have hl := key es {} l rfl hrun
  unfold timeOf at h
  split at h
  · injection h with h; injection h with _ h2; rw [← h2]; exact hl
  · cases h

/-- An array of numbers cannot be read as strings, although one number can. -/
theorem C88_array_text (R : Reals) (o : Opts) (x : Nat) (xs : List Nat) :
    ∃ l l' res, run R o {} [.item (.update (.plain (.array ⟨.f64, .pods (x :: xs)⟩)))] = .ok l ∧
      LinkRead.read R o l .string (some 1) = .ok (l', res) ∧ res.rc = .fail ∧ res.alarm = none := by
  refine ⟨_, _, _, rfl, rfl, rfl, rfl⟩

/-- A value which cannot be converted: the read fails without an alarm, and the link goes on to report alarm and time of an
earlier update. -/
theorem C88_no_alarm (R : Reals) :
    ∃ l l1 l2 r1 r2, run R {} {} [.item (.update (.struct (some (.scalar .i32 (.int 1))) (some (.int 1609459200)) none (some (.int 0)) none none))] = .ok l ∧
      LinkRead.read R {} l .long none = .ok (l1, r1) ∧ r1.rc = .ok ∧
      LinkRead.read R {} (take l1 (.update (.struct (some .struct) (some (.int 1609459300)) none (some (.int 3)) none none))) .long none = .ok (l2, r2) ∧
      r2.rc = .fail ∧ r2.alarm = none ∧ alarmOf l2 = some (0, []) ∧ timeOf l2 = some (⟨978307200, 0⟩, 0) := by
  refine ⟨_, _, _, _, _, rfl, rfl, rfl, rfl, rfl, rfl, rfl, rfl⟩

/-- C88: the number of elements which the link reports is that of the last update; 1 unless it is an array; while not connected there is none. -/
theorem C88_elements (R : Reals) (o : Opts) (es : List Ev) (l : Link) (hrun : run R o {} es = .ok l) :
    (∀ w a, current es = some w → w.value = some (.array a) → elementsOf l = some a.elems.size) ∧
    (∀ w, current es = some w → (∀ a, w.value ≠ some (.array a)) → elementsOf l = some 1) ∧
    (current es = none → elementsOf l = none ∧ typeOf l = none) := by
  have hk := knows R o hrun
  refine ⟨fun w a h ha => ?_, fun w h ha => ?_, fun h => ?_⟩
  · rw [h] at hk; simp [elementsOf, hk.1, hk.2, ha]
  · rw [h] at hk
    simp only [elementsOf, hk.1, hk.2, if_true]
  · rw [h] at hk
    have hk : l.connected = false := hk
    simp [elementsOf, typeOf, hk]

/-- The type of an array is not that of its elements: records which ask for it (e.g. to choose a conversion) are told
DBF_LONG. -/
theorem C88_array_type (R : Reals) (o : Opts) (a : Arr) :
    ∃ l, run R o {} [.item (.update (.plain (.array a)))] = .ok l ∧ typeOf l = some .long := ⟨_, rfl, rfl⟩

/-! ### the hypotheses are met -/

example (R : Reals) : ∃ es l v sec ns sev msg tag st k m, run R { ms := .ms, time := true } {} es = .ok l ∧ es.length = 4 ∧
    current es = some (.struct (some v) sec ns sev msg tag) ∧ TimeIs sec ns st ∧ AlarmIs sev msg k m ∧ k = 2 ∧ Readable R v .long ∧ Readable R v .double := by
  refine ⟨[.item (.update (doc (.int 4))), .read .long none, .item (.disconnect ⟨3, 4⟩), .item (.update (doc (.int (-4))))], _, _, _, _, _, _, _,
    ⟨978307200, 7⟩, 2, [0x68, 0x69], rfl, rfl, rfl, ?_, ?_, rfl, ?_, ?_⟩
  · exact ⟨⟨_, _, rfl, ⟨rfl, by unfold Holds; omega⟩, by omega, by omega, by decide⟩, .inr ⟨_, _, rfl, ⟨rfl, by unfold Holds; omega⟩, by omega, by omega, rfl⟩⟩
  · exact ⟨.inr ⟨_, rfl, ⟨rfl, by unfold Holds; omega⟩, by omega, by omega⟩, .inr ⟨by omega, .inr rfl⟩⟩
  · exact .int (x := -4) (a := .i32) rfl (by unfold Holds; omega) rfl (by simp [intType])
  · exact .double (x := -4) rfl (by unfold Holds; omega)

example (R : Reals) : Readable R (.array ⟨.i16, .pods [1, 2, 3]⟩) .double :=
  .array (a := .f64) (ys := [0x3ff0000000000000, 0x4000000000000000, 0x4008000000000000]) rfl (by rfl)

example (R : Reals) : Readable R (.enum 3 []) .double ∧ Readable R (.scalar .i32 (.int 16777217)) .float ∧ Readable R (.scalar .f64 (.real 0x3ff0000000000001)) .float :=
  ⟨.realIndex (a := .f64) rfl rfl (by decide), .float rfl (by unfold Holds; omega) (by decide),
    .narrow (u := (2 ^ 52 + 1) * 2 ^ 1022) (by decide +kernel) (by decide +kernel)⟩

example : PlainSo [.item (.update (.plain (.scalar .i32 (.int 4)))), .item (.disconnect {})] := by
  intro v a b c d f h
  simp at h

end Pvxs.Props.LinkRead
