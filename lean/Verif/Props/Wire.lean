import Verif.Spec.Wire
import Verif.Lemmas.Wire
/-!
Properties C01-C07 (primitive codec), C56 (segmented receive buffer).
-/
namespace Pvxs.Props
open Pvxs.Wire Pvxs.Spec

/-! glue between the proof vocabulary and the specification -/

theorem roundTrips_of {be : Bool} {enc : Out → Out} {dec : Dec α} {bs : List Byte} {a : α}
    (E : Emits be enc bs) (P : Parses be dec bs a) (g : Good dec) : RoundTrips be enc dec a := by
  have hd : enc (fresh be) = { fresh be with data := bs } := E (fresh be) rfl rfl rfl
  refine ⟨?_, ?_, ?_, ?_⟩
  · rw [hd]; rfl
  · intro pre
    rw [hd]
    exact E { fresh be with data := pre } rfl rfl rfl
  · intro rest; rw [hd]; exact P rest
  · intro p q h hq
    rw [hd] at h
    exact g.no_prefix P h hq

theorem staysInside_of {dec : Dec α} (g : Good dec) : StaysInside dec := by
  refine ⟨?_, g.sticky, ?_⟩
  · intro i
    obtain ⟨u, hu⟩ := g.suffix i
    exact ⟨u, hu.symm⟩
  · intro be used rest h rest'
    exact g.loc be used rest _ (Prod.ext rfl h) rest'

/-! ### C01 -/

theorem C01_size_roundtrip (be allowNull : Bool) (n : Nat) (h : n ≤ 0xffffffff) :
    RoundTrips be (fun o => putSize o n) (getSize allowNull) n :=
  roundTrips_of (emits_putSize be n h) (parses_getSize be allowNull n h) (good_getSize allowNull)

/-- a count that does not fit in 32 bits is refused, and nothing is written -/
theorem C01_size_too_big (o : Out) (n : Nat) (h : 0xffffffff < n) :
    (putSize o n).err = true ∧ (putSize o n).data = o.data := by
  have h1 : ¬ n < 254 := by omega
  have h2 : ¬ n ≤ 0xffffffff := by omega
  simp only [putSize, h1, h2, ↓reduceIte]
  split <;> simp [Out.fault]

example : (0x12345 : Nat) ≤ 0xffffffff ∧ (putSize (fresh true) 0x12345).data = [254, 0, 1, 0x23, 0x45] := by
  decide
example : 0xffffffff < 2 ^ 32 := by decide

/-- two different counts never have the same encoding, nor is one encoding a prefix of another -/
theorem C01_size_injective (be : Bool) (n m : Nat) (hn : n ≤ 0xffffffff) (hm : m ≤ 0xffffffff)
    (x y : List Byte) (h : (putSize (fresh be) n).data ++ x = (putSize (fresh be) m).data ++ y) : n = m ∧ x = y := by
  have a := (C01_size_roundtrip be false n hn).reads x
  have b := (C01_size_roundtrip be false m hm).reads y
  rw [h, b] at a
  simp only [Prod.mk.injEq, input, In.mk.injEq, true_and] at a
  exact ⟨a.1.symm, a.2.symm⟩

/-- union/selector indices: every index up to 2^32-1 and "none" -/
theorem C01_selector_roundtrip (be : Bool) (s : Int) (h1 : -1 ≤ s) (h2 : s ≤ 0xffffffff) :
    RoundTrips be (fun o => putSel o s) getSel s :=
  roundTrips_of (emits_putSel be s h2) (parses_getSel be s h1 h2) good_getSel

example : (putSel (fresh false) (-1)).data = [255] ∧ (putSel (fresh false) 253).data = [253] ∧
    (putSel (fresh false) 254).data = [254, 254, 0, 0, 0] := by decide

/-! ### C02 -/

theorem leBytes_digits (n v : Nat) : leBytes n v = digitsLSB n v := by
  induction n generalizing v with
  | zero => rfl
  | succ n ih =>
    simp only [leBytes, digitsLSB, List.range_succ_eq_map, List.map_cons, List.map_map, Nat.pow_zero, Nat.div_one]
    rw [ih]
    simp only [digitsLSB, List.cons.injEq, true_and]
    apply List.map_congr_left
    intro k _
    simp [Function.comp, Nat.pow_succ', Nat.div_div_eq_div_mul]

theorem digits_reverse (n v : Nat) : (digitsLSB n v).reverse = digitsMSB n v := by
  apply List.ext_getElem
  · simp [digitsLSB, digitsMSB]
  · intro i h1 h2
    simp [digitsLSB, digitsMSB] at h1 ⊢

/-- the wire layout is the negotiated one, independent of the host -/
theorem C02_layout (hostBE be : Bool) (n v : Nat) :
    (toWireHost hostBE (fresh be) n v).data = (if be then digitsMSB n v else digitsLSB n v) ∧
    (toWireHost hostBE (fresh be) n v).err = false := by
  rw [← digits_reverse, ← leBytes_digits]
  cases hostBE <;> cases be <;>
    simp [toWireHost, toWireMem, memBytes, fresh, Out.ensure, Out.put]

/-- the host dependent code and the host independent functions used in the rest of the model are the same -/
theorem C02_host_independent (hostBE : Bool) (o : Out) (n v : Nat) :
    toWireHost hostBE o n v = putInt o n v := by
  cases hostBE <;> cases hb : o.be <;> cases he : o.ensure (leBytes n v).length <;>
    simp [toWireHost, toWireMem, memBytes, putInt, Out.write, wireBytes, hb, he]

theorem C02_host_independent_read (hostBE : Bool) (n : Nat) (i : In) :
    fromWireHost hostBE n i = getInt n i := by
  cases hostBE <;> cases hb : i.be <;> cases he : i.ensure n <;>
    simp [fromWireHost, fromWireMem, memVal, getInt, hb, he]

theorem C02_roundtrip (hostA hostB be : Bool) (n v : Nat) (h : v < 256 ^ n) :
    RoundTrips be (fun o => toWireHost hostA o n v) (fromWireHost hostB n) v := by
  have e1 : (fun o => toWireHost hostA o n v) = (fun o => putInt o n v) :=
    funext fun o => C02_host_independent hostA o n v
  have e2 : fromWireHost hostB n = getInt n := funext fun i => C02_host_independent_read hostB n i
  rw [e1, e2]
  exact roundTrips_of (emits_putInt be n v) (parses_getInt be n v h) (good_getInt n)

example : (toWireHost false (fresh true) 4 0x01020304).data = [1, 2, 3, 4] := by decide
example : (0x0102030405060708 : Nat) < 256 ^ 8 := by decide

/-! ### C03 -/

theorem C03_string_roundtrip (be : Bool) (s : List Byte) (h : s.length < 2 ^ 32) :
    RoundTrips be (fun o => putStr o s) getStr s :=
  roundTrips_of (emits_putStr be s (by omega)) (parses_getStr be s (by omega)) good_getStr

theorem C03_null_string (be : Bool) (rest : List Byte) : getStr (input be (255 :: rest)) = ([], input be rest) := by
  simp [getStr, getSize, getU8, input, In.ensure, nullSize]

theorem C03_string_too_long (be : Bool) (s : List Byte) (h : 2 ^ 32 ≤ s.length) : (putStr (fresh be) s).err = true := by
  have := (C01_size_too_big (fresh be) s.length (by omega)).1
  simp [putStr, Out.write, Out.ensure, this, Out.fault]

/-- arrays of strings and arrays of scalars of any element width -/
theorem C03_string_array_roundtrip (be : Bool) (ss : List (List Byte)) (h : ∀ s ∈ ss, s.length < 2 ^ 32)
    (hn : ss.length < 2 ^ 32) : RoundTrips be (fun o => putStrArr o ss) getStrArr ss :=
  roundTrips_of (emits_putStrArr be ss (fun s hs => by have := h s hs; omega) (by omega))
    (parses_getStrArr be ss (fun s hs => by have := h s hs; omega) (by omega)) good_getStrArr

theorem C02_array_roundtrip (be : Bool) (w : Nat) (vs : List Nat) (h : ∀ v ∈ vs, v < 256 ^ w)
    (hn : vs.length < 2 ^ 32) : RoundTrips be (fun o => putPodArr w o vs) (getPodArr w) vs :=
  roundTrips_of (emits_putPodArr be w vs (by omega)) (parses_getPodArr be w vs h (by omega)) (good_getPodArr w)

example : getStr (input false ((putStr (fresh false) [0x61, 0, 0xff]).data ++ [7])) = ([0x61, 0, 0xff], input false [7]) := by
  decide
example : ∀ v ∈ [1, 0xffff, 3], v < 256 ^ 2 := by decide

/-! ### C04 -/

/-- Full statement of C04: for every status `s`, `RoundTrips be (putStatus · s) getStatus s`.  It is false of the code
(next theorem): texts are cut at the first NUL. -/
theorem C04_status_nul_truncated : ¬ ∀ (be : Bool) (s : Status),
    s.code ≠ 255 → s.msg.length < 2 ^ 32 → s.trace.length < 2 ^ 32 →
    RoundTrips be (fun o => putStatus o s) getStatus s := by
  intro h
  have := (h false ⟨2, [0x61, 0, 0x62], []⟩ (by decide) (by decide) (by decide)).reads []
  revert this; decide

theorem cstr_eq (s : List Byte) (h : (0 : Byte) ∉ s) : cstr s = s := by
  unfold cstr
  induction s with
  | nil => rfl
  | cons a s ih =>
    have ha : a ≠ 0 := by rintro rfl; simp at h
    rw [List.takeWhile_cons_of_pos (by simpa using ha), ih (fun hs => h (by simp [hs]))]

/-- Missing from the full statement: texts containing NUL. -/
theorem C04_status_roundtrip_partial (be : Bool) (s : Status) (hc : s.code ≠ 255)
    (hm : s.msg.length < 2 ^ 32) (ht : s.trace.length < 2 ^ 32) (h1 : (0 : Byte) ∉ s.msg) (h2 : (0 : Byte) ∉ s.trace) :
    RoundTrips be (fun o => putStatus o s) getStatus s := by
  have P := parses_getStatus be s hc (by omega) (by omega)
  rw [cstr_eq _ h1, cstr_eq _ h2] at P
  exact roundTrips_of (emits_putStatus be s (by omega) (by omega)) P good_getStatus

/-- for any text, code, and the part of the text before the first NUL are delivered -/
theorem C04_status_prefix (be : Bool) (s : Status) (hc : s.code ≠ 255)
    (hm : s.msg.length < 2 ^ 32) (ht : s.trace.length < 2 ^ 32) :
    RoundTrips be (fun o => putStatus o s) getStatus
      ⟨s.code, s.msg.takeWhile (· != 0), s.trace.takeWhile (· != 0)⟩ :=
  roundTrips_of (emits_putStatus be s (by omega) (by omega)) (parses_getStatus be s hc (by omega) (by omega))
    good_getStatus

/-- the one byte form is used exactly for OK without text -/
theorem C04_compact_form (be : Bool) (s : Status) (hm : s.msg.length < 2 ^ 32)
    (ht : s.trace.length < 2 ^ 32) :
    (putStatus (fresh be) s).data.length = 1 ↔ (s.code = 0 ∧ s.msg = [] ∧ s.trace = []) := by
  have e := emits_putStatus be s (by omega) (by omega) (fresh be) rfl rfl rfl
  simp only at e
  rw [e]
  constructor
  · intro h
    by_cases h0 : s.code = 0 ∧ s.msg = [] ∧ s.trace = []
    · exact h0
    · exfalso
      have hl : ∀ x, 1 ≤ (strBytes be x).length := by
        intro x; simp only [strBytes, sizeBytes]; split <;> simp
      simp only [statusBytes, h0, ↓reduceIte, fresh, List.nil_append, List.length_cons, List.length_append] at h
      have := hl (cstr s.msg)
      omega
  · intro h0
    simp [statusBytes, h0, fresh]

example : (2 : Byte) ≠ 255 ∧ (0 : Byte) ∉ [0x61, (0x62 : Byte)] ∧
    getStatus (input true (putStatus (fresh true) ⟨2, [0x61, 0x62], [0x63]⟩).data) = (⟨2, [0x61, 0x62], [0x63]⟩, input true []) := by
  decide

/-! ### C05 -/

/-- `be0`: whatever byte order the receiver assumed before -/
theorem C05_header_roundtrip (be be0 : Bool) (h : Header) (hl : h.len < 2 ^ 32)
    (hf : be = false → h.flags &&& 0x80 = 0) (rest : List Byte) :
    getHeader (input be0 ((putHeader (fresh be) h).data ++ rest)) =
      (⟨h.cmd, if be then h.flags ||| 0x80 else h.flags, 2, h.len⟩, input be rest) ∧
    (putHeader (fresh be) h).data.length = 8 ∧ (putHeader (fresh be) h).err = false := by
  have e := emits_putHeader be h (fresh be) rfl rfl rfl
  simp only at e
  rw [e]
  refine ⟨parses_getHeader be0 be h hl hf rest, ?_, rfl⟩
  simp [headerBytes, wireBytes_length, fresh]

/-- exactly the well formed headers are accepted, and a header consumes exactly eight bytes -/
theorem C05_header_accept (be : Bool) (bs : List Byte) :
    (getHeader (input be bs)).2.err = false ↔
      8 ≤ bs.length ∧ bs[0]? = some 0xca ∧ bs[1]? ≠ some 0 := by
  by_cases h8 : 8 ≤ bs.length
  · obtain ⟨m, v, f, c, b0, b1, b2, b3, r, rfl⟩ := list8 bs h8
    simp only [input, getHeader_eq]
    by_cases hc : m ≠ 0xca ∨ v = 0
    · simp only [hc, ↓reduceIte]
      simp
      intro hm; rcases hc with hc | hc
      · exact absurd hm hc
      · exact hc
    · simp only [hc, ↓reduceIte]
      simp only [not_or, Decidable.not_not] at hc
      simp [hc.1, hc.2]
  · have := getHeader_short (input be bs) (by simpa [input] using h8)
    rw [this]
    simp [In.fault, h8]

theorem C05_header_consumes (be : Bool) (bs : List Byte) (h : (getHeader (input be bs)).2.err = false) :
    (getHeader (input be bs)).2.rest = bs.drop 8 := by
  have h8 := ((C05_header_accept be bs).mp h).1
  obtain ⟨m, v, f, c, b0, b1, b2, b3, r, rfl⟩ := list8 bs h8
  simp only [input, getHeader_eq] at h ⊢
  split at h
  · simp at h
  · rename_i hc; simp [hc]

example : (putHeader (fresh true) ⟨5, 0x40, 0, 0x10203⟩).data = [0xca, 2, 0xc0, 5, 0, 1, 2, 3] := by decide
example : (0x10203 : Nat) < 2 ^ 32 ∧ (false = false → (0x40 : Byte) &&& 0x80 = 0) := by decide
example : (getHeader (input false [0xca, 2, 0x40, 5, 3, 2, 1, 0])).2.err = false := by decide

/-! ### C06 (primitives; see the Type and Value files for the rest) -/

theorem C06_int_inside (n : Nat) : StaysInside (getInt n) := staysInside_of (good_getInt n)
theorem C06_size_inside (an : Bool) : StaysInside (getSize an) := staysInside_of (good_getSize an)
theorem C06_selector_inside : StaysInside getSel := staysInside_of good_getSel
theorem C06_string_inside : StaysInside getStr := staysInside_of good_getStr
theorem C06_status_inside : StaysInside getStatus := staysInside_of good_getStatus
theorem C06_array_inside (w : Nat) : StaysInside (getPodArr w) := staysInside_of (good_getPodArr w)
theorem C06_string_array_inside : StaysInside getStrArr := staysInside_of good_getStrArr
theorem C06_addr_inside : StaysInside getAddr := staysInside_of good_getAddr

/-- a decode that faults part way does consume some bytes, then stops -/
example : (getStr (input false [5, 1, 2])).2 = ⟨false, true, [1, 2]⟩ := by decide

/-! ### C07 -/

theorem C07_v4_roundtrip (be : Bool) (junk : List Byte) (a b c d : Byte) :
    RoundTrips be (fun o => putAddr junk o (.v4 a b c d)) getAddr (.v4 a b c d) :=
  roundTrips_of (emits_putAddr be junk _ (by simp)) (parses_getAddr_v4 be a b c d) good_getAddr

theorem C07_v4_is_mapped (be : Bool) (junk : List Byte) (a b c d : Byte) :
    (putAddr junk (fresh be) (.v4 a b c d)).data = [0,0,0,0, 0,0,0,0, 0,0,0xff,0xff, a,b,c,d] := by
  simp [putAddr, fresh, Out.ensure, Out.put, v4prefix, List.replicate]

/-- Full statement of C07 includes every IPv6 address; false for IPv4-mapped ones, which come back as IPv4. -/
theorem C07_v6_mapped_changes_family : ¬ ∀ (be : Bool) (junk bs : List Byte), bs.length = 16 →
    RoundTrips be (fun o => putAddr junk o (.v6 bs)) getAddr (.v6 bs) := by
  intro h
  have := (h false [] (v4prefix ++ [1, 2, 3, 4]) (by decide)).reads []
  revert this; decide

/-- Missing from the full statement: IPv6 addresses inside ::ffff:0:0/96. -/
theorem C07_v6_roundtrip_partial (be : Bool) (junk bs : List Byte) (hl : bs.length = 16)
    (hp : bs.take 12 ≠ [0,0,0,0, 0,0,0,0, 0,0,0xff,0xff]) :
    RoundTrips be (fun o => putAddr junk o (.v6 bs)) getAddr (.v6 bs) :=
  roundTrips_of (emits_putAddr be junk _ (by simp)) (parses_getAddr_v6 be bs hl hp) good_getAddr

/-- the address itself (as 16 bytes) always survives, mapped or not -/
theorem C07_address_bytes_survive (be : Bool) (bs rest : List Byte) (hl : bs.length = 16) :
    ∃ a, getAddr (input be (bs ++ rest)) = (a, input be rest) ∧
      ∀ junk, (putAddr junk (fresh be) a).data = bs := by
  by_cases hp : bs.take 12 = v4prefix
  · have : ∃ a b c d, bs.drop 12 = [a, b, c, d] := by
      have hd : (bs.drop 12).length = 4 := by simp [hl]
      match bs.drop 12, hd with
      | [a, b, c, d], _ => exact ⟨a, b, c, d, rfl⟩
    obtain ⟨a, b, c, d, hd⟩ := this
    have e : bs = v4prefix ++ [a, b, c, d] := by rw [← hp, ← hd, List.take_append_drop]
    refine ⟨.v4 a b c d, ?_, ?_⟩
    · rw [e]; exact parses_getAddr_v4 be a b c d rest
    · intro junk
      have := emits_putAddr be junk (.v4 a b c d) (by simp) (fresh be) rfl rfl rfl
      simp only at this
      rw [this, e]; rfl
  · refine ⟨.v6 bs, parses_getAddr_v6 be bs hl hp rest, ?_⟩
    intro junk
    have := emits_putAddr be junk (.v6 bs) (by simp) (fresh be) rfl rfl rfl
    simp only at this
    rw [this]; rfl

example : ([0x20,1,0xd,0xb8, 0,0,0,0, 0,0,0,0, 0,0,0,1] : List Byte).length = 16 ∧
    ([0x20,1,0xd,0xb8, 0,0,0,0, 0,0,0,0, 0,0,0,1] : List Byte).take 12 ≠ [0,0,0,0, 0,0,0,0, 0,0,0xff,0xff] := by decide

/-! ### C56: the segmented receive buffer behaves like a flat one -/

/-- However the network stack slices the received bytes (`cut` is arbitrary), making n bytes available and
consuming them has the same effect as on one contiguous block. -/
theorem C56_segmented_ensure (cut : Nat) (e : EvIn) (n : Nat) :
    (e.ensure cut n).1 = ((input e.be (e.slice ++ e.more)).ensure n && !e.err) ∧
    (e.ensure cut n).2.slice ++ (e.ensure cut n).2.more = e.slice ++ e.more ∧
    ((e.ensure cut n).1 = true → n ≤ (e.ensure cut n).2.slice.length) := by
  have h := EvIn.ensure_flat cut e n
  refine ⟨?_, congrArg In.rest h.2.1, h.2.2⟩
  rw [h.1]
  simp [EvIn.flat, In.ensure, input, Bool.and_comm]

/-- consuming after a successful ensure removes exactly the first n received bytes -/
theorem C56_segmented_consume (cut : Nat) (e : EvIn) (n : Nat) (h : (e.ensure cut n).1 = true) :
    let e' := (e.ensure cut n).2
    e'.slice.take n = (e.slice ++ e.more).take n ∧
    (e'.advance n).slice ++ (e'.advance n).more = (e.slice ++ e.more).drop n := by
  have h1 := EvIn.ensure_flat cut e n
  have hl := h1.2.2 h
  have hf := congrArg In.rest h1.2.1
  simp only [EvIn.flat] at hf
  refine ⟨?_, ?_⟩
  · rw [← hf, List.take_append_of_le_length hl]
  · rw [← hf, List.drop_append_of_le_length hl]; rfl

/-- Full statement of C56 for skip: skipping n available bytes leaves the rest.  The code violates it when the n
bytes span a slice boundary: too many bytes are skipped (src/pvaproto.h:73-83). -/
theorem C56_skip_across_slices_wrong : ¬ ∀ (cut : Nat) (e : EvIn) (n : Nat), e.err = false → n ≤ (e.slice ++ e.more).length →
    (EvIn.skip cut 2 e n).err = false ∧ (EvIn.skip cut 2 e n).slice ++ (EvIn.skip cut 2 e n).more = (e.slice ++ e.more).drop n := by
  intro h
  have := h 0 ⟨false, false, [1, 2], [3, 4, 5, 6]⟩ 3 rfl (by decide)
  revert this; decide

/-- Missing from the full statement: skips across a slice boundary. -/
theorem C56_skip_partial (cut fuel : Nat) (e : EvIn) (n : Nat) (h : n ≤ e.slice.length) :
    (EvIn.skip cut (fuel + 1) e n).slice ++ (EvIn.skip cut (fuel + 1) e n).more = (e.slice ++ e.more).drop n ∧
    (EvIn.skip cut (fuel + 1) e n).err = e.err := by
  simp [EvIn.skip, h, List.drop_append_of_le_length h]

example : ((⟨false, false, [1, 2], [3, 4, 5, 6]⟩ : EvIn).ensure 4 3) = (true, ⟨false, false, [1, 2, 3, 4, 5, 6], []⟩) := by
  decide
example : 1 ≤ (⟨false, false, [1, 2], [3, 4, 5, 6]⟩ : EvIn).slice.length := by decide

end Pvxs.Props
