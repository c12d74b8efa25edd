import Verif.Spec.Vct
/-
C116: pvxvct shows what it was asked for, and nothing else.
-/
namespace Pvxs.Props.Vct
open Pvxs Pvxs.Vct Pvxs.Spec.Vct

theorem anyPeer_iff (l : List (BitVec 32 × BitVec 32)) (a : BitVec 32) : anyPeer l a = true ↔ ∃ p ∈ l, a &&& p.2 = p.1 := by
  induction l with
  | nil => simp [anyPeer]
  | cons p l ih =>
    obtain ⟨net, k⟩ := p
    unfold anyPeer
    split
    · rename_i h; simp [h]
    · rename_i h; rw [ih]; simp [h]

theorem anyName_iff (pvs names : List Str) : anyName pvs false names = true ↔ ∃ n ∈ names, n ∈ pvs := by
  induction names with
  | nil => simp [anyName]
  | cons n l ih =>
    unfold anyName
    split
    · rename_i h; simp [h]
    · rename_i h; rw [ih]; simp [h]

/-- the mask of so many bits -/
theorem mask_bit (n i : Nat) (h1 : 1 ≤ n) (h2 : n ≤ 32) : (maskOf (readBits n)).getLsbD i = (decide (i < 32) && decide (32 - n ≤ i)) := by
  have e : (32#32 - readBits n).toNat % 32 = 32 - n := by
    have : readBits n = BitVec.ofNat 32 n := by unfold readBits; rw [if_pos (by omega)]
    rw [this, BitVec.toNat_sub]
    simp only [BitVec.toNat_ofNat]
    omega
  unfold maskOf
  rw [e, BitVec.getLsbD_shiftLeft]
  by_cases h : i < 32
  · by_cases h3 : 32 - n ≤ i
    · have h4 : i - (32 - n) < 32 := by omega
      rw [BitVec.getLsbD_allOnes]
      simp only [h, h3, h4, show ¬ i < 32 - n by omega, decide_true, decide_false, Bool.not_false, Bool.and_self]
    · simp [h, h3, show i < 32 - n by omega]
  · simp [h]

theorem and_mask (n : Nat) (h1 : 1 ≤ n) (h2 : n ≤ 32) (a b : BitVec 32) :
    a &&& maskOf (readBits n) = b &&& maskOf (readBits n) ↔ InNet n b a := by
  have hs : InNet n b a ↔ a >>> (32 - n) = b >>> (32 - n) := by
    unfold InNet
    rw [← BitVec.toNat_inj, BitVec.toNat_ushiftRight, BitVec.toNat_ushiftRight, Nat.shiftRight_eq_div_pow, Nat.shiftRight_eq_div_pow]
  rw [hs]
  constructor
  · intro h
    apply BitVec.eq_of_getLsbD_eq
    intro i hi
    rw [BitVec.getLsbD_ushiftRight, BitVec.getLsbD_ushiftRight]
    by_cases h3 : 32 - n + i < 32
    · have := congrArg (fun v => BitVec.getLsbD v (32 - n + i)) h
      simp only [BitVec.getLsbD_and, mask_bit n _ h1 h2] at this
      simpa [h3] using this
    · rw [BitVec.getLsbD_of_ge _ _ (by omega), BitVec.getLsbD_of_ge _ _ (by omega)]
  · intro h
    apply BitVec.eq_of_getLsbD_eq
    intro i hi
    rw [BitVec.getLsbD_and, BitVec.getLsbD_and, mask_bit n _ h1 h2]
    by_cases h3 : 32 - n ≤ i
    · have := congrArg (fun v => BitVec.getLsbD v (i - (32 - n))) h
      simp only [BitVec.getLsbD_ushiftRight] at this
      rw [show 32 - n + (i - (32 - n)) = i by omega] at this
      rw [this]
    · simp [h3]

/-! ### networks -/

/-- `-H net/n` with one to 32 bits lets through the addresses of that network, and no others. -/
theorem C116_net_partial (n : Nat) (h1 : 1 ≤ n) (h2 : n ≤ 32) (net a : BitVec 32) (p : BitVec 32 × BitVec 32) (hp : parsePeer (some net) (.bits n) = some p)
    (o : Opts) (ho : o.peers = [p]) : o.allowPeer (some a) = true ↔ InNet n net a := by
  simp only [parsePeer, Option.some.injEq] at hp
  unfold Opts.allowPeer
  rw [ho]
  simp only [List.isEmpty_cons, Bool.false_eq_true, if_false]
  rw [anyPeer_iff]
  simp only [List.mem_singleton]
  rw [← and_mask n h1 h2, ← hp]
  simp

/-- `-H host` lets through that address only. -/
theorem C116_host (h a : BitVec 32) (p : BitVec 32 × BitVec 32) (hp : parsePeer (some h) .absent = some p) (o : Opts) (ho : o.peers = [p]) :
    o.allowPeer (some a) = true ↔ a = h := by
  simp only [parsePeer, Option.some.injEq] at hp
  unfold Opts.allowPeer
  rw [ho]
  simp only [List.isEmpty_cons, Bool.false_eq_true, if_false]
  rw [anyPeer_iff]
  simp only [List.mem_singleton, ← hp, exists_eq_left, BitVec.and_allOnes]

/-- A mask with dots: a sender is let through if it agrees with the address on every bit which is set in the mask. -/
theorem C116_mask (k net a : BitVec 32) (p : BitVec 32 × BitVec 32) (hp : parsePeer (some net) (.dotted (some k)) = some p) (o : Opts) (ho : o.peers = [p]) :
    o.allowPeer (some a) = true ↔ ∀ i, k.getLsbD i = true → a.getLsbD i = net.getLsbD i := by
  simp only [parsePeer, Option.some.injEq] at hp
  have e : o.allowPeer (some a) = true ↔ a &&& k = net &&& k := by
    unfold Opts.allowPeer
    rw [ho]
    simp only [List.isEmpty_cons, Bool.false_eq_true, if_false]
    rw [anyPeer_iff, ← hp]
    simp
  rw [e]
  constructor
  · intro h i hi
    have := congrArg (fun x => BitVec.getLsbD x i) h
    simpa [BitVec.getLsbD_and, hi] using this
  · intro h
    apply BitVec.eq_of_getLsbD_eq
    intro i _
    rw [BitVec.getLsbD_and, BitVec.getLsbD_and]
    cases hk : k.getLsbD i
    · simp
    · rw [h i hk]

example : ({ peers := ((parsePeer (some 0x0a010203#32) (.dotted (some 0xff0000ff#32))).map fun p => [p]).getD [] } : Opts).allowPeer (some 0x0aff4403#32) = true := by decide

/-- Several -H let through what any of them would. -/
theorem C116_or (o : Opts) (p : BitVec 32 × BitVec 32) (h : o.peers ≠ []) (src : Option (BitVec 32)) :
    ({ o with peers := o.peers ++ [p] } : Opts).allowPeer src = (o.allowPeer src || ({ o with peers := [p] } : Opts).allowPeer src) := by
  have e1 : (o.peers ++ [p]).isEmpty = false := by simp
  have e2 : o.peers.isEmpty = false := by simpa using h
  unfold Opts.allowPeer
  simp only [e1, e2, Bool.false_eq_true, if_false, List.isEmpty_cons]
  cases src with
  | none => rfl
  | some a =>
    simp only
    rw [Bool.eq_iff_iff, Bool.or_eq_true, anyPeer_iff, anyPeer_iff, anyPeer_iff]
    simp only [List.mem_append, List.mem_singleton]
    constructor
    · rintro ⟨q, hq | hq, hm⟩
      · exact .inl ⟨q, hq, hm⟩
      · exact .inr ⟨q, hq, hm⟩
    · rintro (⟨q, hq, hm⟩ | ⟨q, hq, hm⟩)
      · exact ⟨q, .inl hq, hm⟩
      · exact ⟨q, .inr hq, hm⟩

/-- Without -H all are let through; with it no address of IPv6 is. -/
theorem C116_none (o : Opts) : (o.peers = [] → ∀ src, o.allowPeer src = true) ∧ (o.peers ≠ [] → o.allowPeer none = false) := by
  constructor
  · intro h src; simp [Opts.allowPeer, h]
  · intro h
    have : o.peers.isEmpty = false := by simpa using h
    simp [Opts.allowPeer, this]

/-- `-H net/0` does not let through every address, but only the one given (where the shift is what PCs do; C++ does not define it). -/
theorem C116_zero (net a : BitVec 32) (p : BitVec 32 × BitVec 32) (hp : parsePeer (some net) (.bits 0) = some p) (o : Opts) (ho : o.peers = [p]) :
    (o.allowPeer (some a) = true ↔ a = net) ∧ InNet 0 net a := by
  constructor
  · have hm : maskOf (readBits 0) = BitVec.allOnes 32 := by decide
    simp only [parsePeer, Option.some.injEq, hm] at hp
    unfold Opts.allowPeer
    rw [ho]
    simp only [List.isEmpty_cons, Bool.false_eq_true, if_false]
    rw [anyPeer_iff]
    simp only [List.mem_singleton, ← hp, exists_eq_left, BitVec.and_allOnes]
  · unfold InNet
    rw [Nat.div_eq_of_lt (by have := a.isLt; simpa using this), Nat.div_eq_of_lt (by have := net.isLt; simpa using this)]

/-- No number of bits is refused: `/33` lets through half of all addresses. -/
theorem C116_too_many (net : BitVec 32) (n : Nat) : (parsePeer (some net) (.bits n)).isSome = true := rfl

theorem C116_thirty_three : ({ peers := ((parsePeer (some 0#32) (.bits 33)).map fun p => [p]).getD [] } : Opts).allowPeer (some 0x7fffffff#32) = true := by decide

/-! ### what is shown -/

/-- A search is shown if searches are wanted, its sender is let through, and it is for one of the names given with -P, if any are; then with all its names. -/
theorem C116_search (o : Opts) (src : Option (BitVec 32)) (names out : List Str) : o.search src names = some out ↔
    o.client = true ∧ o.allowPeer src = true ∧ (o.pvnames = [] ∨ ∃ n ∈ names, n ∈ o.pvnames) ∧ out = names := by
  unfold Opts.search
  cases hc : o.client
  · simp
  · cases ha : o.allowPeer src
    · simp
    · simp only [Bool.not_true, Bool.or_self, Bool.false_eq_true, if_false, true_and]
      rw [← anyName_iff]
      cases hp : o.pvnames with
      | nil => simp; exact eq_comm
      | cons x l =>
        cases hn : anyName (x :: l) false names
        · simp
        · simp; exact eq_comm

/-- A beacon is shown if beacons are wanted and its sender is let through, whatever names are given. -/
theorem C116_beacon (o : Opts) (src : Option (BitVec 32)) : o.beacon src = true ↔ o.server = true ∧ o.allowPeer src = true := by
  unfold Opts.beacon
  cases o.server <;> cases o.allowPeer src <;> simp

/-- Without -C and -S both are wanted, with one of them only that. -/
theorem C116_defaults (o : Opts) : (o.defaults.client = true ↔ (o.client = true ∨ o.server = false)) ∧ (o.defaults.server = true ↔ (o.server = true ∨ o.client = false)) ∧
    o.defaults.peers = o.peers ∧ o.defaults.pvnames = o.pvnames := by
  obtain ⟨c, s, p, n⟩ := o
  cases c <;> cases s <;> simp [Opts.defaults]

/-! ### the hypotheses are met -/

/-- 192.168.1.7/24 -/
example : ∃ p, parsePeer (some 0xc0a80107#32) (.bits 24) = some p ∧ ({ peers := [p] } : Opts).allowPeer (some 0xc0a801ff#32) = true ∧
    ({ peers := [p] } : Opts).allowPeer (some 0xc0a80201#32) = false := ⟨_, rfl, by decide, by decide⟩

example : ({ client := true, pvnames := [[0x61], [0x62]] } : Opts).search none [[0x63], [0x62]] = some [[0x63], [0x62]] := by decide
example : ({ client := true, pvnames := [[0x61], [0x62]] } : Opts).search none [[0x63]] = none := by decide

end Pvxs.Props.Vct
