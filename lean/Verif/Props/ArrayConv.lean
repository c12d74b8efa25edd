import Verif.Spec.ArrayConv
import Verif.Props.Scalar
import Verif.Lemmas.Real
/-
C81: an array assigned to, or read as, an array of another element type.
-/
namespace Pvxs.Props.ArrayConv
open Pvxs Wire ArrayConv Pvxs.Spec.ArrayConv
open Pvxs.Spec.Scl (Says)
open Pvxs.Lemmas.Real

/-! ### loops -/

theorem each_nil {α β : Type} (P : α → β → Prop) : Each P [] [] := ⟨rfl, fun _ _ _ h => by simp at h⟩

theorem each_cons {α β : Type} {P : α → β → Prop} {x : α} {y : β} {xs : List α} {ys : List β} (h : P x y) (hl : Each P xs ys) :
    Each P (x :: xs) (y :: ys) := by
  refine ⟨by simp [hl.1], fun i a b ha hb => ?_⟩
  cases i with
  | zero =>
    simp only [List.getElem?_cons_zero, Option.some.injEq] at ha hb
    subst ha; subst hb; exact h
  | succ i =>
    simp only [List.getElem?_cons_succ] at ha hb
    exact hl.2 i a b ha hb

theorem eachRes_ok {α β : Type} (f : α → Res β) (P : α → β → Prop) (xs : List α) (h : ∀ x ∈ xs, ∃ y, f x = .ok y ∧ P x y) :
    ∃ ys, eachRes f xs = .ok ys ∧ Each P xs ys := by
  induction xs with
  | nil => exact ⟨[], rfl, each_nil P⟩
  | cons x xs ih =>
    obtain ⟨y, hy, hp⟩ := h x List.mem_cons_self
    obtain ⟨ys, hys, he⟩ := ih fun a ha => h a (List.mem_cons_of_mem _ ha)
    exact ⟨y :: ys, by simp only [eachRes, hy, hys, Res.bind_ok], each_cons hp he⟩

theorem eachRes_fail {α β : Type} (f : α → Res β) (w : String) (xs : List α) (h : ∀ x ∈ xs, (∃ y, f x = .ok y) ∨ f x = .throws w)
    (hx : ∃ x ∈ xs, f x = .throws w) : eachRes f xs = .throws w := by
  induction xs with
  | nil => obtain ⟨x, hm, _⟩ := hx; exact absurd hm List.not_mem_nil
  | cons a xs ih =>
    rcases h a List.mem_cons_self with ⟨y, hy⟩ | hy
    · obtain ⟨x, hm, hf⟩ := hx
      rcases List.mem_cons.mp hm with rfl | hm
      · rw [hy] at hf; cases hf
      · simp only [eachRes, hy, Res.bind_ok, ih (fun b hb => h b (List.mem_cons_of_mem _ hb)) ⟨x, hm, hf⟩, Res.bind_throws]
    · simp only [eachRes, hy, Res.bind_throws]

theorem eachRes_self (xs : List Nat) : eachRes (fun x => Res.ok x) xs = .ok xs := by
  induction xs with
  | nil => rfl
  | cons x xs ih => simp only [eachRes, Res.bind_ok, ih]

/-- what happens to one element -/
def elemOf (s d : AType) (x : Nat) : Res Nat := match how s d with
  | .copy => .ok x
  | .cast a b => castOne a b x
  | _ => .ub

theorem convertArr_pods (R : Reals) (s d : AType) (xs ys : List Nat) (hh : how s d = .copy ∨ ∃ a b, how s d = .cast a b)
    (hd : d ≠ .str ∧ d ≠ .value) (h : eachRes (elemOf s d) xs = .ok ys) : convertArr R d s (.pods xs) = .ok (.pods ys) := by
  unfold convertArr
  by_cases h0 : (Elems.pods xs).size = 0
  · rw [if_pos h0]
    have : xs = [] := List.length_eq_zero_iff.mp h0
    subst this
    simp only [eachRes, Res.ok.injEq] at h
    subst h
    cases d <;> simp_all [emptyOf]
  · rw [if_neg h0]
    rcases hh with hh | ⟨a, b, hh⟩
    · have e : elemOf s d = fun x => Res.ok x := by funext x; simp only [elemOf, hh]
      rw [e, eachRes_self] at h
      injection h with h
      subst h
      simp only [hh]
    · have e : elemOf s d = castOne a b := by funext x; simp only [elemOf, hh]
      rw [e] at h
      simp only [hh, h, Res.bind_ok]

/-- read and assigned alike -/
theorem both (R : Reals) (s d : AType) (x y : Elems) (hs : s ≠ .null ∧ s ≠ .value) (hx : x.size ≠ 0)
    (h : convertArr R d s x = .ok y) (hsame : s = d → y = x) :
    convertTo R d ⟨s, x⟩ = .ok ⟨d, y⟩ ∧ assignArr R d ⟨s, x⟩ = .ok ⟨d, y⟩ := by
  constructor
  · unfold convertTo
    by_cases e : d = s
    · rw [if_pos e]; subst e; rw [hsame rfl]
    · rw [if_neg e, h]; rfl
  · unfold assignArr
    rw [if_neg (by simp [hs.1, hx]), if_neg (by simp [hs.2])]
    by_cases e : d = s
    · rw [if_pos ⟨hs.2, e⟩]; subst e; rw [hsame rfl]
    · rw [if_neg (by simp [e]), if_pos hs.2]
      simp only [copyAs, if_neg hs.1, h, Res.bind_ok]

theorem how_self (d : AType) (hd : intType d ≠ none ∨ realType d ≠ none ∨ d = .bool) : how d d = .copy := by
  cases d <;> simp [intType, realType, how] at hd ⊢

theorem pods_both (R : Reals) (s d : AType) (xs : List Nat) (P : Nat → Nat → Prop)
    (hs : intType s ≠ none ∨ realType s ≠ none ∨ s = .bool) (hd : intType d ≠ none ∨ realType d ≠ none ∨ d = .bool)
    (hne : xs ≠ []) (h : ∀ x ∈ xs, ∃ y, elemOf s d x = .ok y ∧ P x y) :
    ∃ ys, convertTo R d ⟨s, .pods xs⟩ = .ok ⟨d, .pods ys⟩ ∧ assignArr R d ⟨s, .pods xs⟩ = .ok ⟨d, .pods ys⟩ ∧ Each P xs ys := by
  obtain ⟨ys, hy, he⟩ := eachRes_ok (elemOf s d) P xs h
  have hc : convertArr R d s (.pods xs) = .ok (.pods ys) := by
    apply convertArr_pods R s d xs ys _ _ hy
    · cases s <;> cases d <;> simp [intType, realType, how] at hs hd ⊢
    · constructor <;> rintro rfl <;> simp [intType, realType] at hd
  have := both R s d (.pods xs) (.pods ys) (by constructor <;> rintro rfl <;> simp [intType, realType] at hs)
    (by simpa [Elems.size] using hne) hc (by
      rintro rfl
      have e : elemOf s s = fun x => Res.ok x := by funext x; simp only [elemOf, how_self s hs]
      rw [e, eachRes_self] at hy
      injection hy with hy; rw [hy])
  exact ⟨ys, this.1, this.2, he⟩

/-! ### integers -/

theorem wraps_of {t : AType} {b : Nat} {sg : Bool} (h : intType t = some (b, sg)) {v u : Int} (hm : (v - u) % 2 ^ b = 0) : Wraps t v u := by
  simp only [Wraps, h]
  refine ⟨(v - u) / 2 ^ b, ?_⟩
  have := Int.mul_ediv_cancel' (Int.dvd_of_emod_eq_zero hm)
  rw [Int.mul_comm] at this
  omega

theorem int_elem (s d : AType) (hs : intType s ≠ none ∨ s = .bool) (hd : intType d ≠ none) (x : Nat) (hx : Pattern s x) :
    ∃ y, elemOf s d x = .ok y ∧ Pattern d y ∧ ∃ v u, number s x = some v ∧ number d y = some u ∧ Wraps d v u := by
  cases s <;> simp [intType] at hs <;> cases d <;> simp [intType] at hd <;>
    (simp only [Pattern, intType, elemOf, how, castOne, castInt, ofBits, number, Res.ok.injEq, exists_eq_left', Option.some.injEq,
      intBits, intOf] at hx ⊢
     refine ⟨?_, _, _, rfl, rfl, wraps_of rfl ?_⟩ <;> (repeat' split) <;> omega)

theorem wraps_fits {t : AType} {v u : Int} (h : Wraps t v u) (hv : Fits t v) (hu : Fits t u) : v = u := by
  cases ht : intType t with
  | none => simp only [Wraps, ht] at h
  | some p =>
    obtain ⟨b, sg⟩ := p
    simp only [Wraps, ht] at h
    obtain ⟨k, hk⟩ := h
    have hb : (2 : Int) ^ b = 2 * 2 ^ (b - 1) := by
      have : b ≠ 0 := by rintro rfl; cases t <;> simp [intType] at ht
      rw [← Int.pow_succ']; congr 1; omega
    have hp : (0 : Int) < 2 ^ (b - 1) := Int.pow_pos (by decide)
    have k0 : k = 0 := by
      have hlt : -(2 ^ b) < k * 2 ^ b ∧ k * 2 ^ b < (2 : Int) ^ b := by
        cases sg <;> simp only [Fits, ht] at hv hu <;> omega
      generalize (2 : Int) ^ b = G at *
      have hG : 0 < G := by omega
      have h1 : k < 1 := Int.lt_of_mul_lt_mul_right (a := G) (by omega) (by omega)
      have h2 : -1 < k := Int.lt_of_mul_lt_mul_right (a := G) (by omega) (by omega)
      omega
    rw [hk, k0]; omega

theorem number_fits {t : AType} {y : Nat} {u : Int} (ht : intType t ≠ none) (hy : Pattern t y) (hu : number t y = some u) : Fits t u := by
  cases t <;> simp [intType] at ht <;> simp only [number, intType, Pattern, Fits, Option.some.injEq] at * <;> (try split at hu) <;> omega

/-- C81: an array of integers or booleans assigned to, or read as, an array of integers of any width: as many elements, each the integer
it was if the type can hold it, else modulo two to the number of bits. -/
theorem C81_integers (R : Reals) (s d : AType) (xs : List Nat) (hs : intType s ≠ none ∨ s = .bool) (hd : intType d ≠ none)
    (hne : xs ≠ []) (hx : ∀ x ∈ xs, Pattern s x) :
    ∃ ys, convertTo R d ⟨s, .pods xs⟩ = .ok ⟨d, .pods ys⟩ ∧ assignArr R d ⟨s, .pods xs⟩ = .ok ⟨d, .pods ys⟩ ∧
      Each (fun x y => ∃ v u, number s x = some v ∧ number d y = some u ∧ Fits d u ∧ Wraps d v u ∧ (Fits d v → u = v)) xs ys := by
  apply pods_both R s d xs _ (by rcases hs with h | h; exact Or.inl h; exact Or.inr (Or.inr h)) (Or.inl hd) hne
  intro x hm
  obtain ⟨y, h1, h2, v, u, h3, h4, h5⟩ := int_elem s d hs hd x (hx x hm)
  have hf := number_fits hd h2 h4
  exact ⟨y, h1, v, u, h3, h4, hf, h5, fun hv => (wraps_fits h5 hv hf).symm⟩

example : ∃ (xs : List Nat), xs ≠ [] ∧ (∀ x ∈ xs, Pattern .i16 x) ∧
    assignArr ⟨fun _ => [], fun _ => [], fun _ => none⟩ .u32 ⟨.i16, .pods xs⟩ = .ok ⟨.u32, .pods [5, 0xfffffffe]⟩ :=
  ⟨[5, 0xfffe], by simp, by simp [Pattern, intType], by decide⟩

/-- the type whose values are read when the sign matters -/
def readAs : AType → CType
  | .i8 => S8
  | .i16 => S16
  | .i32 => S32
  | .i64 => S64
  | .u8 => U8
  | .u16 => U16
  | .u32 => U32
  | .u64 => U64
  | _ => .bool

theorem ofBits_number {s : AType} (hs : intType s ≠ none ∨ s = .bool) {x : Nat} {v : Int} (hv : number s x = some v) :
    ofBits (readAs s) x = v := by
  cases s <;> simp [intType] at hs <;> simp only [number, intType, Option.some.injEq, ofBits, intOf, readAs] at * <;>
    (try split at hv) <;> (try split) <;> omega

theorem number_some {s : AType} (hs : intType s ≠ none ∨ s = .bool) (x : Nat) : ∃ v, number s x = some v := by
  cases s <;> simp [intType] at hs <;> exact ⟨_, rfl⟩

/-- C81: as booleans. -/
theorem C81_bool (R : Reals) (s : AType) (xs : List Nat) (hs : intType s ≠ none ∨ s = .bool) (hne : xs ≠ []) (hx : ∀ x ∈ xs, Pattern s x) :
    ∃ ys, convertTo R .bool ⟨s, .pods xs⟩ = .ok ⟨.bool, .pods ys⟩ ∧ assignArr R .bool ⟨s, .pods xs⟩ = .ok ⟨.bool, .pods ys⟩ ∧
      Each (fun x y => ∃ v, number s x = some v ∧ y = if v = 0 then 0 else 1) xs ys := by
  apply pods_both R s .bool xs _ (by rcases hs with h | h; exact Or.inl h; exact Or.inr (Or.inr h)) (Or.inr (Or.inr rfl)) hne
  intro x hm
  obtain ⟨v, hv⟩ := number_some hs x
  by_cases hb : s = .bool
  · subst hb
    have := hx x hm
    simp only [number, Option.some.injEq, Pattern] at hv this
    refine ⟨x, rfl, v, by simp [number, hv], ?_⟩
    split <;> omega
  · have h1 : how s .bool = .cast (readAs s) .bool := by cases s <;> simp [intType] at hs <;> first | rfl | exact absurd rfl hb
    refine ⟨if v = 0 then 0 else 1, ?_, v, hv, rfl⟩
    have h2 : castOne (readAs s) .bool x = .ok (castInt (ofBits (readAs s) x) .bool) := by cases s <;> simp [intType] at hs <;> rfl
    simp only [elemOf, h1]
    rw [h2, ofBits_number hs hv]
    simp only [castInt, ite_not, ne_eq]

/-- a real is zero: all bits but the sign -/
theorem units_zero (mb eb x : Nat) (heb : 1 ≤ eb) : units mb eb x = some 0 ↔ x % 2 ^ (mb + eb) = 0 := by
  have hA : 0 < 2 ^ mb := Nat.two_pow_pos mb
  have hB : 2 ≤ 2 ^ eb := Nat.pow_le_pow_right (n := 2) (by decide) heb
  have hdm : x % 2 ^ (mb + eb) = 2 ^ mb * (x / 2 ^ mb % 2 ^ eb) + x % 2 ^ mb := by
    rw [Nat.pow_add, Nat.mod_mul, Nat.add_comm]
  rw [hdm]
  simp only [units]
  generalize x / 2 ^ mb % 2 ^ eb = e at *
  generalize x % 2 ^ mb = m at *
  constructor
  · intro h
    split at h
    · cases h
    · injection h with h
      by_cases he : e = 0
      · subst he
        rw [if_pos rfl] at h
        split at h <;> (simp only [Nat.mul_zero]; omega)
      · exfalso
        rw [if_neg he] at h
        have : 0 < (2 ^ mb + m) * 2 ^ (e - 1) := Nat.mul_pos (by omega) (Nat.two_pow_pos _)
        split at h <;> omega
  · intro h
    have hm : m = 0 := by omega
    have he : e = 0 := by
      rcases Nat.mul_eq_zero.mp (by omega : 2 ^ mb * e = 0) with h | h
      · omega
      · exact h
    subst hm; subst he
    rw [if_neg (by omega)]
    simp

/-- C81: reals as booleans: false for zero only (not for what is not a number). -/
theorem C81_real_bool (R : Reals) (s : AType) (mb eb : Nat) (xs : List Nat) (hs : realType s = some (mb, eb)) (hne : xs ≠ []) :
    ∃ ys, convertTo R .bool ⟨s, .pods xs⟩ = .ok ⟨.bool, .pods ys⟩ ∧ assignArr R .bool ⟨s, .pods xs⟩ = .ok ⟨.bool, .pods ys⟩ ∧
      Each (fun x y => y = if units mb eb x = some 0 then 0 else 1) xs ys := by
  apply pods_both R s .bool xs _ (Or.inr (Or.inl (by rw [hs]; simp))) (Or.inr (Or.inr rfl)) hne
  intro x _
  have h1 := units_zero 23 8 x (by decide)
  have h2 := units_zero 52 11 x (by decide)
  cases s <;> simp only [realType, Option.some.injEq, Prod.mk.injEq, reduceCtorEq] at hs <;> obtain ⟨rfl, rfl⟩ := hs <;>
    simp only [elemOf, how, castOne, Res.ok.injEq, exists_eq_left', h1, h2, Nat.reduceAdd, ite_not, ne_eq]

/-! ### integers and reals -/

theorem number_small {s : AType} {x : Nat} {v : Int} (hs : intType s ≠ none ∨ s = .bool) (hx : Pattern s x) (hv : number s x = some v) :
    v.natAbs < 2 ^ 64 := by
  cases s <;> simp [intType] at hs <;> simp only [number, intType, Pattern, Option.some.injEq] at * <;> (try split at hv) <;> omega

theorem int_real_elem (s : AType) (hs : intType s ≠ none ∨ s = .bool) (x : Nat) {v : Int} (hv : number s x = some v) :
    elemOf s .f32 x = .ok (realOfInt 23 127 31 v) ∧ elemOf s .f64 x = .ok (realOfInt 52 1023 63 v) := by
  have h0 := ofBits_number hs hv
  have h1 : elemOf s .f32 x = .ok (castInt (ofBits (readAs s) x) .f32) ∧ elemOf s .f64 x = .ok (castInt (ofBits (readAs s) x) .f64) := by
    cases s <;> simp [intType] at hs <;> exact ⟨rfl, rfl⟩
  rw [h0] at h1
  exact h1

/-- C81: integers as reals: the nearest real, which is the integer itself when it has no more bits than the mantissa. -/
theorem C81_int_to_real (R : Reals) (s d : AType) (mb eb : Nat) (xs : List Nat) (hs : intType s ≠ none ∨ s = .bool)
    (hd : realType d = some (mb, eb)) (hne : xs ≠ []) (hx : ∀ x ∈ xs, Pattern s x) :
    ∃ ys, convertTo R d ⟨s, .pods xs⟩ = .ok ⟨d, .pods ys⟩ ∧ assignArr R d ⟨s, .pods xs⟩ = .ok ⟨d, .pods ys⟩ ∧
      Each (fun x y => ∃ v, number s x = some v ∧ Nearest mb eb y v 1 ∧
        (v.natAbs < 2 ^ (mb + 1) → units mb eb y = some (v * one mb eb))) xs ys := by
  apply pods_both R s d xs _ (by rcases hs with h | h; exact Or.inl h; exact Or.inr (Or.inr h)) (Or.inr (Or.inl (by rw [hd]; simp))) hne
  intro x hm
  obtain ⟨v, hv⟩ := number_some hs x
  have hsm := number_small hs (hx x hm) hv
  have hl : v.natAbs.log2 ≤ 63 := by
    by_cases h0 : v.natAbs = 0
    · rw [h0]; simp
    · have := (Nat.log2_lt h0).mpr hsm; omega
  obtain ⟨h32, h64⟩ := int_real_elem s hs x hv
  cases d <;> simp only [realType, Option.some.injEq, Prod.mk.injEq, reduceCtorEq] at hd <;> obtain ⟨rfl, rfl⟩ := hd
  · exact ⟨_, h32, v, hv, nearest_realOfInt 23 8 127 v (by decide) (by decide) (by omega),
      fun h => exact_realOfInt 23 8 127 v (by decide) (by decide) (by omega) h⟩
  · exact ⟨_, h64, v, hv, nearest_realOfInt 52 11 1023 v (by decide) (by decide) (by omega),
      fun h => exact_realOfInt 52 11 1023 v (by decide) (by decide) (by omega) h⟩

/-- 16777217 is not a float; -3 is. -/
example : assignArr ⟨fun _ => [], fun _ => [], fun _ => none⟩ .f32 ⟨.i32, .pods [16777217, 0xfffffffd]⟩ =
    .ok ⟨.f32, .pods [0x4b800000, 0xc0400000]⟩ := by decide

theorem number_bits {d : AType} {b : Nat} {sg : Bool} (hd : intType d = some (b, sg)) {t : Int} (hf : Fits d t) :
    ∃ w, b = 8 * w ∧ number d (intBits w t) = some t ∧ (if sg then -((256 ^ w / 2 : Nat) : Int) ≤ t ∧ t < ((256 ^ w / 2 : Nat) : Int) else 0 ≤ t ∧ t < ((256 ^ w : Nat) : Int)) := by
  cases d <;> simp only [intType, Option.some.injEq, Prod.mk.injEq, reduceCtorEq] at hd <;> obtain ⟨rfl, rfl⟩ := hd <;> simp only [Fits, intType] at hf
  all_goals first
    | exact ⟨1, rfl, by simp only [number, intType, intBits, Option.some.injEq]; (try split) <;> omega, by simp; omega⟩
    | exact ⟨2, rfl, by simp only [number, intType, intBits, Option.some.injEq]; (try split) <;> omega, by simp; omega⟩
    | exact ⟨4, rfl, by simp only [number, intType, intBits, Option.some.injEq]; (try split) <;> omega, by simp; omega⟩
    | exact ⟨8, rfl, by simp only [number, intType, intBits, Option.some.injEq]; (try split) <;> omega, by simp; omega⟩

/-- the integer type of the destination -/
theorem real_int_elem (s d : AType) (mb eb : Nat) (hs : realType s = some (mb, eb)) (hd : intType d ≠ none) (x : Nat) :
    elemOf s d x = truncTo (readAs d) (truncated mb eb x) := by
  cases s <;> simp only [realType, Option.some.injEq, Prod.mk.injEq, reduceCtorEq] at hs <;> obtain ⟨rfl, rfl⟩ := hs <;>
    cases d <;> simp [intType] at hd <;> rfl

theorem truncTo_fits {d : AType} (hd : intType d ≠ none) (t : Int) :
    (Fits d t → ∃ y, truncTo (readAs d) (some t) = .ok y ∧ number d y = some t) ∧ (¬ Fits d t → truncTo (readAs d) (some t) = .ub) := by
  cases hi : intType d with
  | none => exact absurd hi hd
  | some p =>
    obtain ⟨b, sg⟩ := p
    constructor
    · intro hf
      obtain ⟨w, h1, h2, h3⟩ := number_bits hi hf
      have hr : readAs d = if sg then .sint w else .uint w := by
        cases d <;> simp only [intType, Option.some.injEq, Prod.mk.injEq, reduceCtorEq] at hi <;> obtain ⟨rfl, rfl⟩ := hi <;>
          (have : w = 1 ∨ w = 2 ∨ w = 4 ∨ w = 8 := by omega) <;> rcases this with rfl | rfl | rfl | rfl <;> first | rfl | omega
      refine ⟨_, ?_, h2⟩
      rw [hr]
      cases sg
      · simp only [Bool.false_eq_true, if_false] at h3 ⊢
        simp only [truncTo, if_pos h3]
      · simp only [if_true] at h3 ⊢
        simp only [truncTo, if_pos h3]
    · intro hf
      cases d <;> simp only [intType, Option.some.injEq, Prod.mk.injEq, reduceCtorEq] at hi <;> simp only [Fits, intType] at hf <;>
        simp only [readAs, truncTo] <;> rw [if_neg] <;> omega

/-- C81: reals as integers: the fraction is dropped. -/
theorem C81_real_to_int (R : Reals) (s d : AType) (mb eb : Nat) (xs : List Nat) (hs : realType s = some (mb, eb)) (hd : intType d ≠ none)
    (hne : xs ≠ []) (hx : ∀ x ∈ xs, ∃ u, units mb eb x = some u ∧ Fits d (u.tdiv (one mb eb))) :
    ∃ ys, convertTo R d ⟨s, .pods xs⟩ = .ok ⟨d, .pods ys⟩ ∧ assignArr R d ⟨s, .pods xs⟩ = .ok ⟨d, .pods ys⟩ ∧
      Each (fun x y => ∃ u, units mb eb x = some u ∧ number d y = some (u.tdiv (one mb eb))) xs ys := by
  apply pods_both R s d xs _ (Or.inr (Or.inl (by rw [hs]; simp))) (Or.inl hd) hne
  intro x hm
  obtain ⟨u, hu, hf⟩ := hx x hm
  obtain ⟨y, h1, h2⟩ := (truncTo_fits hd (u.tdiv (one mb eb))).1 hf
  refine ⟨y, ?_, u, hu, h2⟩
  rw [real_int_elem s d mb eb hs hd, truncated_some mb eb x _ hu, h1]
  cases s <;> simp only [realType, Option.some.injEq, Prod.mk.injEq, reduceCtorEq] at hs <;> obtain ⟨rfl, rfl⟩ := hs <;> decide

/-- -2.5 and 7.75 -/
example : assignArr ⟨fun _ => [], fun _ => [], fun _ => none⟩ .i8 ⟨.f64, .pods [0xc004000000000000, 0x401f000000000000]⟩ =
    .ok ⟨.i8, .pods [0xfe, 7]⟩ := by decide

theorem eachRes_ub {α β : Type} (f : α → Res β) (xs : List α) (h : ∀ x ∈ xs, (∃ y, f x = .ok y) ∨ f x = .ub)
    (hx : ∃ x ∈ xs, f x = .ub) : eachRes f xs = .ub := by
  induction xs with
  | nil => obtain ⟨x, hm, _⟩ := hx; exact absurd hm List.not_mem_nil
  | cons a xs ih =>
    rcases h a List.mem_cons_self with ⟨y, hy⟩ | hy
    · obtain ⟨x, hm, hf⟩ := hx
      rcases List.mem_cons.mp hm with rfl | hm
      · rw [hy] at hf; cases hf
      · simp only [eachRes, hy, Res.bind_ok, ih (fun b hb => h b (List.mem_cons_of_mem _ hb)) ⟨x, hm, hf⟩, Res.bind_ub]
    · simp only [eachRes, hy, Res.bind_ub]

/-- What C81 forbids: a real which is too large, or not a number, is not refused: the behaviour is undefined. -/
theorem C81_real_ub (R : Reals) (s d : AType) (mb eb : Nat) (xs : List Nat) (hs : realType s = some (mb, eb)) (hd : intType d ≠ none)
    (x : Nat) (hm : x ∈ xs) (hx : ∀ u, units mb eb x = some u → ¬ Fits d (u.tdiv (one mb eb))) :
    convertTo R d ⟨s, .pods xs⟩ = .ub ∧ assignArr R d ⟨s, .pods xs⟩ = .ub := by
  have heb : 2 ≤ 2 ^ (eb - 1) := by
    cases s <;> simp only [realType, Option.some.injEq, Prod.mk.injEq, reduceCtorEq] at hs <;> obtain ⟨rfl, rfl⟩ := hs <;> decide
  have all : ∀ z, (∃ y, elemOf s d z = .ok y) ∨ elemOf s d z = .ub := by
    intro z
    rw [real_int_elem s d mb eb hs hd]
    cases hz : units mb eb z with
    | none => right; rw [truncated_none mb eb z hz]; cases d <;> rfl
    | some u =>
      rw [truncated_some mb eb z heb hz]
      by_cases hf : Fits d (u.tdiv (one mb eb))
      · obtain ⟨y, h1, _⟩ := (truncTo_fits hd _).1 hf
        exact Or.inl ⟨y, h1⟩
      · exact Or.inr ((truncTo_fits hd _).2 hf)
  have hub : elemOf s d x = .ub := by
    rw [real_int_elem s d mb eb hs hd]
    cases hz : units mb eb x with
    | none => rw [truncated_none mb eb x hz]; cases d <;> rfl
    | some u => rw [truncated_some mb eb x heb hz]; exact (truncTo_fits hd _).2 (hx u hz)
  have hh : ∃ a b, how s d = .cast a b ∧ elemOf s d = castOne a b := by
    cases s <;> simp only [realType, Option.some.injEq, Prod.mk.injEq, reduceCtorEq] at hs <;>
      cases d <;> simp [intType] at hd <;> exact ⟨_, _, rfl, rfl⟩
  obtain ⟨a, b, hh, he⟩ := hh
  have hc : convertArr R d s (.pods xs) = .ub := by
    have h0 : (Elems.pods xs).size ≠ 0 := by
      intro h
      have : xs = [] := List.length_eq_zero_iff.mp h
      rw [this] at hm; exact absurd hm List.not_mem_nil
    simp only [convertArr, if_neg h0, hh]
    rw [← he, eachRes_ub (elemOf s d) xs (fun z _ => all z) ⟨x, hm, hub⟩]
    rfl
  have hne : d ≠ s := by rintro rfl; cases d <;> simp [intType, realType] at hs hd
  have hsv : s ≠ .null ∧ s ≠ .value := by constructor <;> rintro rfl <;> simp [realType] at hs
  have h0 : (Elems.pods xs).size ≠ 0 := by
    intro h
    have : xs = [] := List.length_eq_zero_iff.mp h
    rw [this] at hm; exact absurd hm List.not_mem_nil
  constructor
  · simp only [convertTo, if_neg hne, hc, Res.bind_ub]
  · unfold assignArr
    rw [if_neg (by simp [hsv.1, h0]), if_neg (by simp [hsv.2]), if_neg (by simp [hne]), if_pos hsv.2]
    simp only [copyAs, if_neg hsv.1, hc, Res.bind_ub]

/-- 300.0 as uint8_t, and an infinity -/
example : assignArr ⟨fun _ => [], fun _ => [], fun _ => none⟩ .u8 ⟨.f64, .pods [0x4072c00000000000]⟩ = .ub ∧
    assignArr ⟨fun _ => [], fun _ => [], fun _ => none⟩ .i64 ⟨.f32, .pods [0x7f800000]⟩ = .ub := by decide

/-- C81: floats as doubles: the same number. -/
theorem C81_widen (R : Reals) (xs : List Nat) (hne : xs ≠ []) :
    ∃ ys, convertTo R .f64 ⟨.f32, .pods xs⟩ = .ok ⟨.f64, .pods ys⟩ ∧ assignArr R .f64 ⟨.f32, .pods xs⟩ = .ok ⟨.f64, .pods ys⟩ ∧
      Each (fun x y => ∀ u, units 23 8 x = some u → ∃ v, units 52 11 y = some v ∧ v * one 23 8 = u * one 52 11) xs ys := by
  apply pods_both R .f32 .f64 xs _ (by decide) (by decide) hne
  intro x _
  refine ⟨widen x, rfl, fun u hu => ⟨_, widen_exact x 925 rfl hu, ?_⟩⟩
  rw [one_ratio 925 rfl, Int.natCast_mul, Int.mul_assoc]

/-- C81: doubles as floats: the nearest float.  A double further from zero than half way from the largest float to two to the 128 becomes
an infinity. -/
theorem C81_narrow (R : Reals) (xs : List Nat) (hne : xs ≠ []) :
    ∃ ys, convertTo R .f32 ⟨.f64, .pods xs⟩ = .ok ⟨.f32, .pods ys⟩ ∧ assignArr R .f32 ⟨.f64, .pods xs⟩ = .ok ⟨.f32, .pods ys⟩ ∧
      Each (fun x y => ∀ u, units 52 11 x = some u → Nearest 23 8 y u (one 52 11) ∨
        (units 23 8 y = none ∧ (2 ^ 25 - 1) * 2 ^ (925 + 252) ≤ u.natAbs)) xs ys := by
  apply pods_both R .f64 .f32 xs _ (by decide) (by decide) hne
  intro x _
  exact ⟨narrow x, rfl, fun u hu => narrow_nearest x hu⟩

/-! ### text -/

theorem each_map {α β : Type} (f : α → β) (P : α → β → Prop) (xs : List α) (h : ∀ x ∈ xs, P x (f x)) : Each P xs (xs.map f) := by
  refine ⟨by simp, fun i x y hx hy => ?_⟩
  rw [List.getElem?_map, hx] at hy
  simp only [Option.map_some, Option.some.injEq] at hy
  subst hy
  exact h x (List.mem_of_getElem? hx)

theorem showInt_decimal (v : Int) : Decimal v (showInt v) := by
  refine ⟨showNat v.natAbs, showNat_digits _, fun h => showNat_head _ (by omega), fun h => ?_, by unfold showInt; rfl⟩
  subst h
  simp [showNat]

theorem pods_text (R : Reals) (s : AType) (xs : List Nat) (P : Nat → Str → Prop) (c : CType) (hs : how s .str = .print c)
    (hne : xs ≠ []) (h : ∀ x ∈ xs, P x (printOne R c x)) :
    ∃ ss, convertTo R .str ⟨s, .pods xs⟩ = .ok ⟨.str, .strs ss⟩ ∧ assignArr R .str ⟨s, .pods xs⟩ = .ok ⟨.str, .strs ss⟩ ∧ Each P xs ss := by
  have h0 : (Elems.pods xs).size ≠ 0 := by simpa [Elems.size] using hne
  have hc : convertArr R .str s (.pods xs) = .ok (.strs (xs.map (printOne R c))) := by simp only [convertArr, if_neg h0, hs]
  have := both R s .str (.pods xs) _ (by constructor <;> rintro rfl <;> simp [how] at hs) h0 hc
    (by rintro rfl; simp [how] at hs)
  exact ⟨_, this.1, this.2, each_map _ P xs h⟩

/-- C81, in part: integers as text: each the decimal text of the integer.  Not so for the upper half of uint8_t: `C81_octets`. -/
theorem C81_print_partial (R : Reals) (s : AType) (xs : List Nat) (hs : intType s ≠ none) (hne : xs ≠ []) (hx : ∀ x ∈ xs, Pattern s x)
    (hu8 : s = .u8 → ∀ x ∈ xs, x < 128) :
    ∃ ss, convertTo R .str ⟨s, .pods xs⟩ = .ok ⟨.str, .strs ss⟩ ∧ assignArr R .str ⟨s, .pods xs⟩ = .ok ⟨.str, .strs ss⟩ ∧
      Each (fun x t => ∃ v, number s x = some v ∧ Decimal v t) xs ss := by
  apply pods_text R s xs _ (readAs s) (by cases s <;> simp [intType] at hs <;> rfl) hne
  intro x hm
  obtain ⟨v, hv⟩ := number_some (Or.inl hs) x
  refine ⟨v, hv, ?_⟩
  have e : printOne R (readAs s) x = showInt v := by
    by_cases h8 : s = .u8
    · subst h8
      have := hu8 rfl x hm
      simp only [number, intType, Option.some.injEq] at hv
      simp only [readAs, printOne, intBits, intOf]
      rw [if_pos (by omega)]
      congr 1; omega
    · rw [← ofBits_number (Or.inl hs) hv]
      cases s <;> simp [intType] at hs <;> first | rfl | exact absurd rfl h8
  rw [e]
  exact showInt_decimal v

/-- An element of an array of uint8_t above 127 as text. -/
theorem C81_octets_all (R : Reals) (x : Nat) (h1 : 128 ≤ x) (h2 : x < 256) :
    assignArr R .str ⟨.u8, .pods [x]⟩ = .ok ⟨.str, .strs [showInt (x + 4294967040)]⟩ := by
  have e : printOne R U8 x = showInt (x + 4294967040) := by
    simp only [printOne, intBits, intOf]
    rw [if_neg (by omega)]
    congr 1; omega
  have hc : convertArr R .str .u8 (.pods [x]) = .ok (.strs [printOne R U8 x]) := rfl
  rw [← e]
  exact (both R .u8 .str (.pods [x]) _ (by decide) (by simp [Elems.size]) hc (by intro h; cases h)).2

/-- What C81 forbids: an element of an array of uint8_t above 127 is printed as another number. -/
theorem C81_octets (R : Reals) :
    Pattern .u8 200 ∧ number .u8 200 = some 200 ∧
    assignArr R .str ⟨.u8, .pods [200]⟩ = .ok ⟨.str, .strs [[0x34, 0x32, 0x39, 0x34, 0x39, 0x36, 0x37, 0x32, 0x34, 0x30]]⟩ ∧
    Decimal 4294967240 [0x34, 0x32, 0x39, 0x34, 0x39, 0x36, 0x37, 0x32, 0x34, 0x30] := by
  have e : showInt 4294967240 = [0x34, 0x32, 0x39, 0x34, 0x39, 0x36, 0x37, 0x32, 0x34, 0x30] := by
    simp [showInt, showNat]
  refine ⟨by simp [Pattern, intType], rfl, ?_, ?_⟩
  · rw [← e]; exact C81_octets_all R 200 (by decide) (by decide)
  · rw [← e]; exact showInt_decimal _

/-- C81: booleans as text. -/
theorem C81_print_bool (R : Reals) (xs : List Nat) (hne : xs ≠ []) :
    ∃ ss, convertTo R .str ⟨.bool, .pods xs⟩ = .ok ⟨.str, .strs ss⟩ ∧ assignArr R .str ⟨.bool, .pods xs⟩ = .ok ⟨.str, .strs ss⟩ ∧
      Each (fun x t => t = boolText x) xs ss := by
  apply pods_text R .bool xs _ .bool rfl hne
  intro x _
  simp only [printOne, boolText, trueText, falseText, ite_not, ne_eq]

theorem strs_both (R : Reals) (d : AType) (c : CType) (ss : List Str) (P : Str → Nat → Prop) (hd : how .str d = .parse c)
    (hne : ss ≠ []) (h : ∀ t ∈ ss, ∃ y, parseOne R c t = .ok y ∧ P t y) :
    ∃ ys, convertTo R d ⟨.str, .strs ss⟩ = .ok ⟨d, .pods ys⟩ ∧ assignArr R d ⟨.str, .strs ss⟩ = .ok ⟨d, .pods ys⟩ ∧ Each P ss ys := by
  obtain ⟨ys, hy, he⟩ := eachRes_ok (parseOne R c) P ss h
  have h0 : (Elems.strs ss).size ≠ 0 := by simpa [Elems.size] using hne
  have hc : convertArr R d .str (.strs ss) = .ok (.pods ys) := by simp only [convertArr, if_neg h0, hd, hy, Res.bind_ok]
  have := both R .str d (.strs ss) _ (by decide) h0 hc (by rintro rfl; simp [how] at hd)
  exact ⟨ys, this.1, this.2, he⟩

theorem strs_fail (R : Reals) (d : AType) (c : CType) (ss : List Str) (w : String) (hd : how .str d = .parse c)
    (h : ∀ t ∈ ss, (∃ y, parseOne R c t = .ok y) ∨ parseOne R c t = .throws w) (hx : ∃ t ∈ ss, parseOne R c t = .throws w) :
    convertTo R d ⟨.str, .strs ss⟩ = .throws w ∧ assignArr R d ⟨.str, .strs ss⟩ = .throws w := by
  have h0 : (Elems.strs ss).size ≠ 0 := by
    intro h
    obtain ⟨t, hm, _⟩ := hx
    have : ss = [] := List.length_eq_zero_iff.mp h
    rw [this] at hm; exact absurd hm List.not_mem_nil
  have hc : convertArr R d .str (.strs ss) = .throws w := by
    simp only [convertArr, if_neg h0, hd, eachRes_fail (parseOne R c) w ss h hx, Res.bind_throws]
  have hne : d ≠ .str := by rintro rfl; simp [how] at hd
  constructor
  · simp only [convertTo, if_neg hne, hc, Res.bind_throws]
  · unfold assignArr
    rw [if_neg (by simp [h0]), if_neg (by simp), if_neg (by simp [hne]), if_pos (by simp)]
    simp only [copyAs, hc, Res.bind_throws, if_neg (by decide : AType.str ≠ .null)]

theorem parse_elem (R : Reals) (d : AType) (b : Nat) (sg : Bool) (hd : intType d = some (b, sg)) (t : Str) :
    (∀ neg m, Reads sg t neg m → ∃ y u, parseOne R (readAs d) t = .ok y ∧ number d y = some u ∧ Fits d u ∧ Wraps d (numberRead neg m) u) ∧
    ((¬ ∃ neg m, Reads sg t neg m) → parseOne R (readAs d) t = .throws "NoConvert") := by
  cases sg with
  | true =>
    obtain ⟨w, hw, hr⟩ : ∃ w, b = 8 * w ∧ readAs d = .sint w := by
      cases d <;> simp only [intType, Option.some.injEq, Prod.mk.injEq, reduceCtorEq, and_false] at hd <;> obtain ⟨rfl, _⟩ := hd <;>
        first | exact ⟨1, rfl, rfl⟩ | exact ⟨2, rfl, rfl⟩ | exact ⟨4, rfl, rfl⟩ | exact ⟨8, rfl, rfl⟩
    constructor
    · rintro neg m ⟨h1, h2⟩
      simp only [if_true] at h2
      have hp : parseI64 t = some (numberRead neg m) := by
        refine (Scl.C58_text_signed t _).mpr ⟨neg, m, h1, rfl, ?_⟩
        unfold numberRead
        cases neg <;> simp at h2 ⊢ <;> omega
      have e : number d (intBits w (numberRead neg m)) ≠ none ∧ Pattern d (intBits w (numberRead neg m)) ∧
          ∀ u, number d (intBits w (numberRead neg m)) = some u → Wraps d (numberRead neg m) u := by
        generalize numberRead neg m = v
        cases d <;> simp only [intType, Option.some.injEq, Prod.mk.injEq, reduceCtorEq, and_false] at hd <;>
          (have hw' : w = 1 ∨ w = 2 ∨ w = 4 ∨ w = 8 := by omega) <;> rcases hw' with rfl | rfl | rfl | rfl <;> (try omega) <;>
          (refine ⟨by simp [number, intType], by simp only [Pattern, intType, intBits]; omega, fun u hu => wraps_of rfl ?_⟩
           simp only [number, intType, intBits, Option.some.injEq] at hu
           omega)
      obtain ⟨e1, e2, e3⟩ := e
      cases hn : number d (intBits w (numberRead neg m)) with
      | none => exact absurd hn e1
      | some u =>
        refine ⟨_, u, ?_, hn, number_fits (by rw [hd]; simp) e2 hn, e3 u hn⟩
        rw [hr]
        simp only [parseOne, hp, Option.map_some, orThrow]
    · intro hno
      have hp : parseI64 t = none := by
        cases h : parseI64 t with
        | none => rfl
        | some v =>
          obtain ⟨neg, m, h1, h2, h3⟩ := (Scl.C58_text_signed t v).mp h
          exact absurd ⟨neg, m, h1, by cases neg <;> simp at h2 ⊢ <;> omega⟩ hno
      rw [hr]
      simp only [parseOne, hp, Option.map_none, orThrow]
  | false =>
    obtain ⟨w, hw, hr⟩ : ∃ w, b = 8 * w ∧ readAs d = .uint w := by
      cases d <;> simp only [intType, Option.some.injEq, Prod.mk.injEq, reduceCtorEq, and_false] at hd <;> obtain ⟨rfl, _⟩ := hd <;>
        first | exact ⟨1, rfl, rfl⟩ | exact ⟨2, rfl, rfl⟩ | exact ⟨4, rfl, rfl⟩ | exact ⟨8, rfl, rfl⟩
    constructor
    · rintro neg m ⟨h1, h2⟩
      simp only [Bool.false_eq_true, if_false] at h2
      have hp := (Scl.C58_text_unsigned t _).mpr ⟨neg, m, h1, h2, rfl⟩
      refine ⟨(if neg then (2 ^ 64 - m) % 2 ^ 64 else m) % 256 ^ w, (((if neg then (2 ^ 64 - m) % 2 ^ 64 else m) % 256 ^ w : Nat) : Int), ?_, ?_⟩
      · rw [hr]
        simp only [parseOne, hp, Option.map_some, orThrow]
      · unfold numberRead
        cases d <;> simp only [intType, Option.some.injEq, Prod.mk.injEq, reduceCtorEq, and_false] at hd <;>
          (have hw' : w = 1 ∨ w = 2 ∨ w = 4 ∨ w = 8 := by omega) <;> rcases hw' with rfl | rfl | rfl | rfl <;> (try omega) <;>
          (refine ⟨rfl, by simp only [Fits, intType]; omega, wraps_of rfl ?_⟩
           cases neg <;> simp only [Bool.false_eq_true, if_false, if_true] <;> omega)
    · intro hno
      have hp : parseU64 t = none := by
        cases h : parseU64 t with
        | none => rfl
        | some v =>
          obtain ⟨neg, m, h1, h2, h3⟩ := (Scl.C58_text_unsigned t v).mp h
          exact absurd ⟨neg, m, h1, by simpa using h2⟩ hno
      rw [hr]
      simp only [parseOne, hp, Option.map_none, orThrow]

/-- C81: text as integers: accepted when each is a number of 64 bits, else all of it is refused. -/
theorem C81_parse (R : Reals) (d : AType) (b : Nat) (sg : Bool) (ss : List Str) (hd : intType d = some (b, sg)) (hne : ss ≠ []) :
    ((∀ t ∈ ss, ∃ neg m, Reads sg t neg m) →
      ∃ ys, convertTo R d ⟨.str, .strs ss⟩ = .ok ⟨d, .pods ys⟩ ∧ assignArr R d ⟨.str, .strs ss⟩ = .ok ⟨d, .pods ys⟩ ∧
        Each (fun t y => ∃ neg m u, Reads sg t neg m ∧ number d y = some u ∧ Fits d u ∧ Wraps d (numberRead neg m) u ∧
          (Fits d (numberRead neg m) → u = numberRead neg m)) ss ys) ∧
    ((∃ t ∈ ss, ¬ ∃ neg m, Reads sg t neg m) →
      convertTo R d ⟨.str, .strs ss⟩ = .throws "NoConvert" ∧ assignArr R d ⟨.str, .strs ss⟩ = .throws "NoConvert") := by
  have hh : how .str d = .parse (readAs d) := by cases d <;> simp [intType] at hd <;> rfl
  constructor
  · intro h
    apply strs_both R d (readAs d) ss _ hh hne
    intro t hm
    obtain ⟨neg, m, hr⟩ := h t hm
    obtain ⟨y, u, h1, h2, h3, h4⟩ := (parse_elem R d b sg hd t).1 neg m hr
    exact ⟨y, h1, neg, m, u, hr, h2, h3, h4, fun hf => (wraps_fits h4 hf h3).symm⟩
  · rintro ⟨t, hm, hno⟩
    apply strs_fail R d (readAs d) ss "NoConvert" hh
    · intro s _
      by_cases hs : ∃ neg m, Reads sg s neg m
      · obtain ⟨neg, m, hs⟩ := hs
        obtain ⟨y, u, h1, _⟩ := (parse_elem R d b sg hd s).1 neg m hs
        exact Or.inl ⟨y, h1⟩
      · exact Or.inr ((parse_elem R d b sg hd s).2 hs)
    · exact ⟨t, hm, (parse_elem R d b sg hd t).2 hno⟩

/-- " -7" and "0x10" as int8_t, "x" -/
example : assignArr ⟨fun _ => [], fun _ => [], fun _ => none⟩ .i8 ⟨.str, .strs [[0x20, 0x2d, 0x37], [0x30, 0x78, 0x31, 0x30]]⟩ =
      .ok ⟨.i8, .pods [0xf9, 0x10]⟩ ∧
    assignArr ⟨fun _ => [], fun _ => [], fun _ => none⟩ .i8 ⟨.str, .strs [[0x37], [0x78]]⟩ = .throws "NoConvert" := by decide

/-- C81: text as booleans. -/
theorem C81_parse_bool (R : Reals) (ss : List Str) (hne : ss ≠ []) (h : ∀ t ∈ ss, t = boolText 0 ∨ t = boolText 1) :
    ∃ ys, convertTo R .bool ⟨.str, .strs ss⟩ = .ok ⟨.bool, .pods ys⟩ ∧ assignArr R .bool ⟨.str, .strs ss⟩ = .ok ⟨.bool, .pods ys⟩ ∧
      Each (fun t y => y < 2 ∧ t = boolText y) ss ys := by
  apply strs_both R .bool .bool ss _ rfl hne
  intro t hm
  rcases h t hm with rfl | rfl
  · exact ⟨0, rfl, by decide, rfl⟩
  · exact ⟨1, rfl, by decide, rfl⟩

/-- What C81 forbids: other text for a boolean is refused with another exception than the rest. -/
theorem C81_bool_text (R : Reals) (t : Str) (h0 : t ≠ boolText 0) (h1 : t ≠ boolText 1) :
    assignArr R .bool ⟨.str, .strs [t]⟩ = .throws "runtime_error" := by
  have e : parseOne R .bool t = .throws "runtime_error" := by
    have a1 : t ≠ trueText := h1
    have a0 : t ≠ falseText := h0
    simp only [parseOne, if_neg a1, if_neg a0]
  exact (strs_fail R .bool .bool [t] _ rfl (by intro s hs; rw [List.mem_singleton.mp hs]; exact Or.inr e) ⟨t, List.mem_singleton_self _, e⟩).2

/-- ...so that an attempt to assign throws where it should say no... -/
theorem C81_try (R : Reals) (t : Str) (h0 : t ≠ boolText 0) (h1 : t ≠ boolText 1) :
    tryAssignArr R .bool ⟨.str, .strs [t]⟩ = .throws "runtime_error" := by
  simp only [tryAssignArr, C81_bool_text R t h0 h1]
  rfl

/-- ...and an Union with a choice which fits refuses the array because of another which does not. -/
theorem C81_union (R : Reals) (t : Str) (h0 : t ≠ boolText 0) (h1 : t ≠ boolText 1) :
    autoSelect R ⟨.str, .strs [t]⟩ 0 [.bool, .str] = .throws "runtime_error" ∧
    autoSelect R ⟨.str, .strs [t]⟩ 0 [.str, .bool] = .ok (0, ⟨.str, .strs [t]⟩) := by
  constructor
  · simp only [autoSelect, C81_bool_text R t h0 h1]
    rfl
  · rfl

example : ([0x31] : Str) ≠ boolText 0 ∧ ([0x31] : Str) ≠ boolText 1 := by decide

/-- C81: text as text. -/
theorem C81_text (R : Reals) (ss : List Str) (hne : ss ≠ []) :
    convertTo R .str ⟨.str, .strs ss⟩ = .ok ⟨.str, .strs ss⟩ ∧ assignArr R .str ⟨.str, .strs ss⟩ = .ok ⟨.str, .strs ss⟩ := by
  have h0 : (Elems.strs ss).size ≠ 0 := by simpa [Elems.size] using hne
  exact both R .str .str (.strs ss) _ (by decide) h0 (by simp only [convertArr, if_neg h0, how]) (fun _ => rfl)

/-- C81: an array of structures, unions or Any is never taken for an array of scalars, nor the other way around. -/
theorem C81_refused (R : Reals) (s d : AType) (x : Elems) (h0 : x.size ≠ 0) (hs : s ≠ .null) (hd : d ≠ .null)
    (h : (s = .value) ≠ (d = .value)) :
    convertTo R d ⟨s, x⟩ = .throws "NoConvert" ∧ assignArr R d ⟨s, x⟩ = .throws "NoConvert" := by
  have hh : how s d = .no := by cases s <;> cases d <;> simp at h hs hd ⊢ <;> rfl
  have hc : convertArr R d s x = .throws "NoConvert" := by simp only [convertArr, if_neg h0, hh]
  have hne : d ≠ s := by rintro rfl; exact h rfl
  constructor
  · simp only [convertTo, if_neg hne, hc, Res.bind_throws]
  · unfold assignArr
    rw [if_neg (by simp [hs, h0]), if_neg (by
      rintro ⟨h1, h2⟩
      have : d = .value := by simpa [compound] using h2
      exact hne (this.trans h1.symm)), if_neg (by simp [hne])]
    by_cases hv : s = .value
    · rw [if_neg (by simp [hv])]
    · rw [if_pos hv]
      simp only [copyAs, if_neg hs, hc, Res.bind_throws]

/-- C81: an empty array of any type may be assigned to any, and read as any. -/
theorem C81_empty (R : Reals) (s d : AType) (x : Elems) (h0 : x.size = 0) :
    assignArr R d ⟨s, x⟩ = .ok ⟨.null, .pods []⟩ ∧ ∃ y, convertTo R d ⟨s, x⟩ = .ok ⟨d, y⟩ ∧ y.size = 0 := by
  constructor
  · simp only [assignArr, h0, or_true, if_true]
  · unfold convertTo
    by_cases h : d = s
    · subst h; exact ⟨x, by rw [if_pos rfl], h0⟩
    · refine ⟨emptyOf d, ?_, by cases d <;> rfl⟩
      rw [if_neg h]
      simp only [convertArr, if_pos h0, Res.bind_ok]

/-- What C81 forbids: an array of Values with more than one reference can not be thawed, one with a single reference can. -/
theorem C81_thaw (R : Reals) (n : Nat) (h : n ≠ 0) :
    thaw R false ⟨.value, .vals n⟩ = .throws "NoConvert" ∧ thaw R true ⟨.value, .vals n⟩ = .ok ⟨.value, .vals n⟩ := by
  constructor
  · have hc : convertArr R .value .value (.vals n) = .throws "NoConvert" := by
      have h0 : (Elems.vals n).size ≠ 0 := h
      simp only [convertArr, if_neg h0, how]
    simp only [thaw, hc, Bool.false_eq_true, if_false, Res.bind_throws]
  · rfl

/-- C81: other arrays can. -/
theorem C81_thaw_partial (R : Reals) (u : Bool) (s : AType) (xs : List Nat) (hs : intType s ≠ none ∨ realType s ≠ none ∨ s = .bool) :
    thaw R u ⟨s, .pods xs⟩ = .ok ⟨s, .pods xs⟩ := by
  cases u with
  | true => rfl
  | false =>
    simp only [thaw, convertArr, how_self s hs, Bool.false_eq_true, if_false]
    split
    · rename_i h
      have : xs = [] := List.length_eq_zero_iff.mp h
      subst this
      cases s <;> simp [intType, realType] at hs <;> rfl
    · rfl

/-! ### within a Value -/

/-- the type code of an array of scalars -/
def codeOf : AType → TypeCode
  | .bool => .BoolA
  | .i8 => .Int8A
  | .i16 => .Int16A
  | .i32 => .Int32A
  | .i64 => .Int64A
  | .u8 => .UInt8A
  | .u16 => .UInt16A
  | .u32 => .UInt32A
  | .u64 => .UInt64A
  | .f32 => .Float32A
  | .f64 => .Float64A
  | .str => .StringA
  | .value => .StructA
  | .null => .Null

theorem codeOf_atype (c : TypeCode) : atypeOf c = .null ∨ atypeOf c = .value ∨ codeOf (atypeOf c) = c := by
  unfold atypeOf
  by_cases h : c = .BoolA; · subst h; decide
  rw [if_neg h]; clear h
  by_cases h : c = .Int8A; · subst h; decide
  rw [if_neg h]; clear h
  by_cases h : c = .Int16A; · subst h; decide
  rw [if_neg h]; clear h
  by_cases h : c = .Int32A; · subst h; decide
  rw [if_neg h]; clear h
  by_cases h : c = .Int64A; · subst h; decide
  rw [if_neg h]; clear h
  by_cases h : c = .UInt8A; · subst h; decide
  rw [if_neg h]; clear h
  by_cases h : c = .UInt16A; · subst h; decide
  rw [if_neg h]; clear h
  by_cases h : c = .UInt32A; · subst h; decide
  rw [if_neg h]; clear h
  by_cases h : c = .UInt64A; · subst h; decide
  rw [if_neg h]; clear h
  by_cases h : c = .Float32A; · subst h; decide
  rw [if_neg h]; clear h
  by_cases h : c = .Float64A; · subst h; decide
  rw [if_neg h]; clear h
  by_cases h : c = .StringA; · subst h; decide
  rw [if_neg h]; clear h
  by_cases h : c = .StructA ∨ c = .UnionA ∨ c = .AnyA
  · rw [if_pos h]; exact Or.inr (Or.inl rfl)
  · rw [if_neg h]; exact Or.inl rfl

theorem atype_inj {c d : TypeCode} (h : atypeOf c = atypeOf d) (hc : atypeOf c ≠ .null) (hv : atypeOf c ≠ .value) : c = d := by
  rcases codeOf_atype c with h1 | h1 | h1
  · exact absurd h1 hc
  · exact absurd h1 hv
  · rcases codeOf_atype d with h2 | h2 | h2
    · exact absurd (h.trans h2) hc
    · exact absurd (h.trans h2) hv
    · rw [← h1, ← h2, h]

/-- C81: assigning an array field of a structure to another (`Value::assign`): as for arrays alone. -/
theorem C81_value (R : Reals) (env : CopyEnv) (rec : Assign) (d : FieldDesc) (sc : TypeCode) (x : Datum) (e y : Elems)
    (henv : ∀ a b z w, ofDatum z = some w → env.conv a b z = convDatum R a b w)
    (hx : ofDatum x = some e) (h0 : e.size ≠ 0) (hs : atypeOf sc ≠ .null ∧ atypeOf sc ≠ .value)
    (h : assignArr R (atypeOf d.code) ⟨atypeOf sc, e⟩ = .ok ⟨atypeOf d.code, y⟩) :
    copyArray env rec d sc x = toDatum y := by
  have hemp : emptyArray x = false := by
    cases x <;> simp only [ofDatum, Option.some.injEq, reduceCtorEq] at hx <;> subst hx <;> rename_i l <;> cases l <;> first | rfl | exact absurd rfl h0
  have hx' : copyArray env rec d sc x = if d.code = sc then .ok x else env.conv d.code sc x := by
    unfold copyArray
    rw [hemp]
    cases x <;> simp only [ofDatum, Option.some.injEq, reduceCtorEq] at hx <;> rfl
  rw [hx']
  unfold assignArr at h
  rw [if_neg (by simp [hs.1, h0]), if_neg (by simp [hs.2])] at h
  have hxe : toDatum e = .ok x := by
    cases x <;> simp only [ofDatum, Option.some.injEq, reduceCtorEq] at hx <;> subst hx <;> rfl
  by_cases hd : d.code = sc
  · rw [if_pos hd]
    rw [if_pos ⟨hs.2, by rw [hd]⟩] at h
    injection h with h
    injection h with _ h
    subst h
    exact hxe.symm
  · rw [if_neg hd]
    rw [if_neg (by
      rintro ⟨_, h2⟩
      exact hd (atype_inj h2.symm hs.1 hs.2).symm), if_pos hs.2] at h
    rw [henv d.code sc x e hx]
    unfold convDatum
    cases hc : copyAs R (atypeOf d.code) (atypeOf sc) e with
    | ok r =>
      simp only [hc, Res.bind_ok, Res.ok.injEq, Arr.mk.injEq, true_and] at h
      rw [h]; rfl
    | throws w => simp only [hc, Res.bind_throws, reduceCtorEq] at h
    | ub => simp only [hc, Res.bind_ub, reduceCtorEq] at h

example : ∃ y, assignArr ⟨fun _ => [], fun _ => [], fun _ => none⟩ (atypeOf .Int32A) ⟨atypeOf .UInt8A, .pods [1, 200]⟩ = .ok ⟨atypeOf .Int32A, y⟩ ∧
    y = .pods [1, 200] := ⟨.pods [1, 200], by decide, rfl⟩

end Pvxs.Props.ArrayConv
