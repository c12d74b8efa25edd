import Verif.Lemmas.Memory
/-
C112: what a peer sends bounds what it makes the receiver keep.
-/
namespace Pvxs.Props.Mem
open Pvxs Pvxs.Wire Pvxs.Lemmas Pvxs.Memory Pvxs.Spec.Memory Pvxs.Lemmas.Memory

/-! ### values -/

/-- A value which is accepted, of any type, with everything in its unions and arrays, costs at least one byte for each scalar, each element
and each character. -/
theorem C112_value (f : Nat) (c : TypeStore) (t : List FieldDesc) (i : In) (h : (getVal f c t i).2.err = false) :
    weightV (getVal f c t i).1.1 ≤ taken (getVal f c t) i := by
  have := val_pays f c t i h
  unfold taken
  omega

/-- The same where the type comes with the value. -/
theorem C112_typed (f : Nat) (c : TypeStore) (i : In) (h : (getTyped (getVal f) c i).2.err = false) :
    weightV (getTyped (getVal f) c i).1.1 < taken (getTyped (getVal f) c) i := by
  have := typed_paid (val_pays f) c i h
  unfold taken
  omega

/-! ### types -/

/-- A type which is read without adding to the types kept for the connection costs one byte for at most as many nodes as the largest of those has. -/
theorem C112_type_partial (B : Nat) (hB : 1 ≤ B) (c : TypeStore) (hc : KeptBelow B c) (i : In) (h : (getTypeTop c i).1.2 = c) :
    nodes (getTypeTop c i).1.1 ≤ B * taken (getTypeTop c) i := by
  have h1 := (type_frugal hB 21).pays c i h hc
  have h2 := rest_le (good_getType 21 c) i
  unfold taken getTypeTop
  rw [Nat.mul_sub]
  omega

/-- When none is kept, before or after, each node costs a byte. -/
theorem C112_type_fresh (i : In) (h : (getTypeTop [] i).1.2 = []) : nodes (getTypeTop [] i).1.1 ≤ taken (getTypeTop []) i := by
  have := C112_type_partial 1 (Nat.le_refl _) [] (fun k t h => by simp [TypeStore.find?] at h) i h
  omega

/-! ### the types kept are not bounded so -/

/-- The first message of a connection can have `l ≤ 10` levels, each of which has the level below as its first member, and once more for each of the
names.  It is accepted.  Its length is proportional to `l` times the number of names, the number of nodes of the type is at least the `l`-th power of it. -/
theorem C112_tower (be : Bool) (L : Nat) (names : List Str) (hL : ∀ n ∈ names, n.length ≤ L) (hL' : L ≤ 0xffffffff) (hm : names.length < 0xffffffff)
    (l : Nat) (hl : l ≤ 10) : ∃ msg : List Byte, msg.length ≤ 1 + l * (12 + names.length * (L + 8)) ∧
      (getTypeTop [] ⟨be, false, msg⟩).2 = ⟨be, false, []⟩ ∧ (names.length + 1) ^ l ≤ (getTypeTop [] ⟨be, false, msg⟩).1.1.length := by
  obtain ⟨t, c', hp, ht, -⟩ := parses_tower be names (fun n hn => Nat.le_trans (hL n hn) hL') hm l (by omega) 21 [] (by omega)
    (fun k _ => by simp [TypeStore.find?])
  refine ⟨tower be names l, tower_length be L names hL l, ?_⟩
  have h0 := hp []
  rw [List.append_nil] at h0
  simp only [getTypeTop, h0]
  refine ⟨trivial, ?_⟩
  rw [ht]
  exact heap_big _ _

/-- ten thousand bytes, one hundred million million million nodes -/
theorem C112_hundred (be : Bool) : ∃ msg : List Byte, msg.length ≤ 10000 ∧
    (getTypeTop [] ⟨be, false, msg⟩).2.err = false ∧ 100000000000000000000 ≤ nodes (getTypeTop [] ⟨be, false, msg⟩).1.1 := by
  obtain ⟨msg, h1, h2, h3⟩ := C112_tower be 1 ((List.range 99).map fun i => [UInt8.ofNat (i + 0x30)]) (by simp) (by omega) (by simp) 10 (Nat.le_refl _)
  refine ⟨msg, ?_, by rw [h2], ?_⟩
  · simp only [List.length_map, List.length_range] at h1; omega
  · simp only [List.length_map, List.length_range] at h3
    exact Nat.le_trans (by omega) (length_le_nodes _)

/-- So no number of nodes per byte below 10 000 000 000 000 000 bounds the type made from a message. -/
theorem C112_unbounded (be : Bool) (F : Nat) (hF : F < 10000000000000000) :
    ¬ ∀ msg : List Byte, (getTypeTop [] ⟨be, false, msg⟩).2.err = false → nodes (getTypeTop [] ⟨be, false, msg⟩).1.1 ≤ F * msg.length := by
  intro h
  obtain ⟨msg, h1, h2, h3⟩ := C112_hundred be
  have h4 := h msg h2
  have h5 := Nat.mul_le_mul_left F h1
  omega

/-! ### what is asked for before the bytes are there -/

/-- Five bytes are enough to ask for an array of any size up to 4 294 967 295, of which no element follows. -/
theorem C112_asks (be : Bool) (n : Nat) (h : n ≤ 0xffffffff) : ∃ msg : List Byte, msg.length ≤ 5 ∧ arrayAsks ⟨be, false, msg⟩ = n := by
  refine ⟨sizeBytes be n, sizeBytes_le be n, ?_⟩
  have := parses_getSize be false n h []
  rw [List.append_nil] at this
  simp [arrayAsks, this]

/-- Six are enough for as many members of a structure. -/
theorem C112_asks_members (be : Bool) (n : Nat) (h : n ≤ 0xffffffff) : ∃ msg : List Byte, msg.length ≤ 6 ∧ membersAsks ⟨be, false, msg⟩ = n := by
  have h1 := parses_getStr be [] (by simp) (sizeBytes be n)
  have h2 := parses_getSize be false n h []
  rw [List.append_nil] at h2
  refine ⟨strBytes be [] ++ sizeBytes be n, ?_, ?_⟩
  · have h3 := sizeBytes_le be n
    have h4 : (strBytes be []).length = 1 := by simp [strBytes, sizeBytes]
    rw [List.length_append]; omega
  · simp [membersAsks, h1, h2]

/-- An array of scalars or of strings which is accepted has as many elements as were asked for, so each has been paid: the excess is only for messages which
fail. -/
theorem C112_asks_paid (w : Nat) (hw : 1 ≤ w) (i : In) (h : (getPodArr w i).2.err = false) : arrayAsks i ≤ taken (getPodArr w) i := by
  have h1 := pods_paid w (getSize false i).1 (getSize false i).2 h
  have h2 := getSize_rest false i
  have h3 := Nat.mul_le_mul_left (getSize false i).1 hw
  unfold arrayAsks taken getPodArr
  simp only at h1 ⊢
  omega

/-! ### the hypotheses are met -/

/-- a structure with a string, a scalar array and an Any with an int -/
def msgV : In := ⟨false, false, [0x80, 0, 3, 1, 0x61, 0x60, 1, 0x62, 0x2a, 1, 0x63, 0x82,
  2, 0x68, 0x69, 2, 1, 0, 0, 0, 2, 0, 0, 0, 0x22, 7, 0, 0, 0]⟩

example : (getTyped (getVal 5) [] msgV).2 = ⟨false, false, []⟩ ∧ weightV (getTyped (getVal 5) [] msgV).1.1 = 7 ∧ msgV.rest.length = 29 := by decide +kernel

example : (getTypeTop [] msgV).1.2 = [] ∧ (getTypeTop [] msgV).2.err = false ∧ nodes (getTypeTop [] msgV).1.1 = 4 := by decide +kernel

example : KeptBelow 1 [(3, [{ code := .Int32 }])] := by
  intro k t h
  by_cases hk : k = 3
  · subst hk; simp [TypeStore.find?] at h; subst h; decide
  · have hb : (k == 3) = false := by simpa using hk
    simp [TypeStore.find?, List.lookup, hb] at h

/-- two names, two levels: thirteen nodes -/
example : nodes (getTypeTop [] ⟨false, false, tower false [[0x62], [0x63]] 2⟩).1.1 = 13 ∧ (tower false [[0x62], [0x63]] 2).length = 37 := by decide +kernel

end Pvxs.Props.Mem
