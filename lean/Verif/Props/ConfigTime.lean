import Verif.Lemmas.ConfigTime
import Verif.Props.Config
/-
C65, the timeout.
-/
namespace Pvxs.Props.ConfigTime
open Pvxs Pvxs.Cfg Pvxs.RealScalar Pvxs.RealParse Pvxs.Lemmas.RealBack Pvxs.Props.RealParse Pvxs.Lemmas.ConfigTime
open Pvxs.Spec.ArrayConv (units one)
open Pvxs.Spec.RealParse (Says num den)
open Pvxs.Spec.RealScalar (Stands)

attribute [local irreducible] one

/-- tmoScale is the double nearest to 4/3 -/
theorem scale_is : ofBits (rounded (4 / 3)) = .fin tmoScale := by decide +kernel

/-- a number is read, scaled, scaled back and printed -/
theorem there_and_back (after : Bool) (dest : Dbl) {s : Str} {M B : Nat} {E : Int} (h : Says s false M B E) (q : Rat)
    (hq : (num M B E : Rat) / den B E = q) (h1 : 11 / 10 ≤ q) (h2 : q ≤ 8 * 10 ^ 18) :
    ∃ t' : Rat, ∃ u : Nat, parseTimeout (flt after) dest s = .fin t' ∧ 10 ^ 6 * (t' - q * (4 / 3)) ≤ q ∧ 10 ^ 6 * (q * (4 / 3) - t') ≤ q ∧ 0 < u ∧
      (flt after).print ((flt after).unscale (.fin t')) = text u ∧ Near 50 ((u : Rat) / T) q := by
  obtain ⟨u0, -, r1, r2, r3⟩ := read_near after h (by rw [hq]; linarith) (by rw [hq]; norm_num at h2 ⊢; linarith)
  rw [hq] at r2 r3
  generalize hy : (u0 : Rat) / T = y at *
  have hS : tmoScale = 6004799503160661 / 4503599627370496 := by unfold tmoScale; norm_num
  norm_num at r2 r3 h2
  obtain ⟨u1, k1, k2, k3, k4⟩ := rounded_near (y * tmoScale) (by rw [hS]; linarith) (by rw [hS]; norm_num; linarith)
  generalize ht : (u1 : Rat) / T = t' at *
  rw [hS] at k3 k4
  norm_num at k3 k4
  obtain ⟨u2, l1, l2, l3, l4⟩ := rounded_near (t' / tmoScale) (by rw [hS]; norm_num; linarith) (by rw [hS]; norm_num; linarith)
  rw [hS] at l3 l4
  norm_num at l3 l4
  have near : Near 50 ((u2 : Rat) / T) q := by
    constructor <;> norm_num <;> linarith
  refine ⟨t', u2, ?_, by norm_num; linarith, by norm_num; linarith, l1, ?_, near⟩
  · unfold parseTimeout
    rw [r1]
    show (if y < 0 ∨ maxTime < y then dest else (flt after).scale y) = _
    rw [if_neg]
    · show ofBits (rounded (y * tmoScale)) = _
      rw [ofBits_units k2 k1, ht]
    · unfold maxTime
      norm_num
      constructor <;> linarith
  · show (flt after).print (ofBits (rounded (t' / tmoScale))) = _
    rw [ofBits_units l2 l1]
    exact print_text after l2 l1 (by linarith) (by norm_num; linarith)

/-- what is near six digits is printed as these -/
theorem near_text (u d : Nat) (X : Int) (hu : 0 < u) (h1 : 10 ^ 5 ≤ d) (h2 : d < 10 ^ 6)
    (hn : Near 50 ((u : Rat) / T) ((d * up (X - 5) : Nat) / (dn (X - 5) : Rat))) : text u = digitsText d X := by
  have hT : (0 : Rat) < (one 52 11 : Nat) := by rw [T_one]; exact T_pos
  have hD : (0 : Rat) < dn (X - 5) := by exact_mod_cast dn_pos _
  rw [← T_one, near_iff _ _ _ _ _ hT hD] at hn
  obtain ⟨n1, n2⟩ := hn
  have key : ∀ O U D : Nat, ((2 ^ 50 - 1) * (((d * U : Nat) : Rat) * O) ≤ 2 ^ 50 * (u * D) → (2 ^ 50 - 1) * (d * (O * U)) ≤ 2 ^ 50 * (u * D)) ∧
      (2 ^ 50 * ((u : Rat) * D) ≤ (2 ^ 50 + 1) * (((d * U : Nat) : Rat) * O) → 2 ^ 50 * (u * D) ≤ (2 ^ 50 + 1) * (d * (O * U))) := by
    intro O U D
    have e : d * (O * U) = d * U * O := by ac_rfl
    rw [e]
    norm_num
    constructor
    · intro h; exact_mod_cast h
    · intro h; exact_mod_cast h
  exact text_near50 u d X hu h1 h2 ((key _ _ _).1 n1) ((key _ _ _).2 n2)

/-- the text of a timeout in use: its digits, and how near it is -/
theorem print_digits (after : Bool) (t : Rat) (h1 : 2 ≤ t) (h2 : t < 2 ^ 63) : ∃ (d : Nat) (X : Int) (q p : Rat),
    (flt after).print ((flt after).unscale (.fin t)) = digitsText d X ∧ 10 ^ 5 ≤ d ∧ d < 10 ^ 6 ∧ q = (d * up (X - 5) : Nat) / (dn (X - 5) : Rat) ∧
    10 ^ 5 * p ≤ q ∧ 2 ^ 53 * 3 * t * 2 ≤ (2 ^ 53 + 2) * 4 * (2 * q + p) ∧ (2 ^ 53 - 2) * 4 * (2 * q - p) ≤ 2 ^ 53 * 3 * t * 2 := by
  have hS : tmoScale = 6004799503160661 / 4503599627370496 := by unfold tmoScale; norm_num
  norm_num at h2
  obtain ⟨u, k1, k2, k3, k4⟩ := rounded_near (t / tmoScale) (by rw [hS]; norm_num; linarith) (by rw [hS]; norm_num; linarith)
  obtain ⟨d, X, e, d1, d2, lo, hi⟩ := text_digits u k1
  have hp : (flt after).print ((flt after).unscale (.fin t)) = text u := by
    show (flt after).print (ofBits (rounded (t / tmoScale))) = _
    rw [hS] at k3 k4
    norm_num at k3 k4
    rw [ofBits_units k2 k1]
    exact print_text after k2 k1 (by linarith) (by norm_num; linarith)
  rw [hS] at k3 k4
  norm_num at k3 k4
  have hD : (0 : Rat) < dn (X - 5) := by exact_mod_cast dn_pos _
  have hU : (0 : Rat) < up (X - 5) := by exact_mod_cast up_pos _
  refine ⟨d, X, _, (up (X - 5) : Rat) / dn (X - 5), by rw [hp, e], d1, d2, rfl, ?_, ?_⟩
  · have : (10 ^ 5 : Rat) ≤ d := by exact_mod_cast d1
    rw [← mul_div_assoc, div_le_div_iff_of_pos_right hD]
    push_cast
    exact mul_le_mul_of_nonneg_right this (le_of_lt hU)
  · have key : ∀ O U D : Nat, 0 < O → 0 < D → (2 * (d * (O * U)) ≤ 2 * (u * D) + O * U → 2 * (((d * U : Nat) : Rat) / D) ≤ 2 * ((u : Rat) / O) + (U : Rat) / D) ∧
        (2 * (u * D) ≤ 2 * (d * (O * U)) + O * U → 2 * ((u : Rat) / O) ≤ 2 * (((d * U : Nat) : Rat) / D) + (U : Rat) / D) := by
      intro O U D hO hD
      have hO : (0 : Rat) < O := by exact_mod_cast hO
      have hD : (0 : Rat) < D := by exact_mod_cast hD
      constructor
      · intro h
        have h : (2 : Rat) * (d * (O * U)) ≤ 2 * (u * D) + O * U := by exact_mod_cast h
        have e : 2 * ((u : Rat) / O) + (U : Rat) / D = (2 * (u * D) + O * U) / (O * D) := by field_simp
        have e' : 2 * (((d * U : Nat) : Rat) / D) = (2 * (d * (O * U))) / (O * D) := by push_cast; field_simp
        rw [e, e']
        exact div_le_div_of_nonneg_right h (le_of_lt (mul_pos hO hD))
      · intro h
        have h : (2 : Rat) * (u * D) ≤ 2 * (d * (O * U)) + O * U := by exact_mod_cast h
        have e : 2 * (((d * U : Nat) : Rat) / D) + (U : Rat) / D = (2 * (d * (O * U)) + O * U) / (O * D) := by push_cast; field_simp
        have e' : 2 * ((u : Rat) / O) = (2 * (u * D)) / (O * D) := by field_simp
        rw [e, e']
        exact div_le_div_of_nonneg_right h (le_of_lt (mul_pos hO hD))
    have lo := (key _ _ _ Lemmas.RealBack.one_pos (dn_pos _)).1 lo
    have hi := (key _ _ _ Lemmas.RealBack.one_pos (dn_pos _)).2 hi
    rw [T_one] at lo hi
    generalize ((d * up (X - 5) : Nat) : Rat) / dn (X - 5) = q at *
    generalize ((up (X - 5) : Nat) : Rat) / dn (X - 5) = p at *
    generalize (u : Rat) / T = x at *
    constructor <;> norm_num <;> linarith

/-- the digits printed are read as what they stand for -/
theorem digits_says (d : Nat) (X : Int) (h1 : 10 ^ 5 ≤ d) (h2 : d < 10 ^ 6) : ∃ (M : Nat) (E : Int), Stands (digitsText d X) false M E ∧
    Says (digitsText d X) false M 10 E ∧ (num M 10 E : Rat) / den 10 E = (d * up (X - 5) : Nat) / (dn (X - 5) : Rat) := by
  obtain ⟨z, M, hz, hst⟩ := Lemmas.RealText.digitsText_spec false d X h1 h2
  have hst : Stands (digitsText d X) false M (X - 5 + z) := hst
  refine ⟨M, X - 5 + z, hst, says_of hst, ?_⟩
  have hr := ratio_zeros M d z (X - 5 + z) (X - 5) hz rfl
  have hD : ((dn (X - 5) : Nat) : Rat) ≠ 0 := by exact_mod_cast Nat.ne_of_gt (dn_pos _)
  have hE : ((den 10 (X - 5 + z) : Nat) : Rat) ≠ 0 := by exact_mod_cast Nat.ne_of_gt (den_pos (by decide) _)
  rw [div_eq_div_iff hE hD]
  exact_mod_cast hr

/-- a timeout in use, written and read -/
theorem write_read (after : Bool) (dest : Dbl) (t : Rat) (h1 : 2 ≤ t) (h2 : t < 2 ^ 63) :
    ∃ t' : Rat, parseTimeout (flt after) dest ((flt after).print ((flt after).unscale (.fin t))) = .fin t' ∧
      10 ^ 5 * (t' - t) ≤ t ∧ 10 ^ 5 * (t - t') ≤ t ∧
      (flt after).print ((flt after).unscale (.fin t')) = (flt after).print ((flt after).unscale (.fin t)) := by
  obtain ⟨d, X, q, p, e, d1, d2, hq, hp, lo, hi⟩ := print_digits after t h1 h2
  obtain ⟨M, E, -, hs, hv⟩ := digits_says d X d1 d2
  rw [← hq] at hv
  norm_num at lo hi h2 hp
  obtain ⟨t', u, r1, r2, r3, r4, r5, r6⟩ := there_and_back after dest hs q hv (by linarith) (by norm_num; linarith)
  rw [e]
  norm_num at r2 r3
  refine ⟨t', r1, by norm_num; linarith, by norm_num; linarith, ?_⟩
  rw [r5]
  rw [hq] at r6
  exact near_text u d X r4 d1 d2 r6

theorem server_timeout {net : Net} {f : Flt} {self c : Server} {defs : Defs} (h : self.fromDefs net f defs = some c) :
    c.tcpTimeout = applyTimeout f self.tcpTimeout (pickOne defs [.pvaConnTmo]) := by
  unfold Server.fromDefs at h
  simp only [Option.bind_eq_some_iff, Option.map_eq_some_iff] at h
  obtain ⟨_, _, _, _, _, _, rfl⟩ := h
  rfl

/-- The timeout of a server, written out and applied to another, is the same within one part in 100000, and is then written as the same text.
It is not kept exactly: `C65_timeout_lossy`. -/
theorem C65_server_timeout_partial (after : Bool) (net : Net) (c self c' : Server) (defs defs' : Defs) (t : Rat) (h : Spec.Cfg.Usable c.tcpTimeout)
    (ht : c.tcpTimeout = .fin t) (hc : self.fromDefs net (flt after) (c.updateDefs (flt after) defs) = some c') :
    ∃ t', c'.tcpTimeout = .fin t' ∧ 10 ^ 5 * (t' - t) ≤ t ∧ 10 ^ 5 * (t - t') ≤ t ∧
      c'.updateDefs (flt after) defs' .pvaConnTmo = c.updateDefs (flt after) defs .pvaConnTmo := by
  obtain ⟨q, hq, h1, h2⟩ := h
  obtain rfl : t = q := by rw [ht] at hq; cases hq; rfl
  obtain ⟨t', r1, r2, r3, r4⟩ := write_read after self.tcpTimeout t h1 h2
  have := server_timeout hc
  have : c'.tcpTimeout = .fin t' := by rw [this, ← r1, ← ht]; rfl
  refine ⟨t', this, r2, r3, ?_⟩
  show some ((flt after).print ((flt after).unscale c'.tcpTimeout)) = some ((flt after).print ((flt after).unscale c.tcpTimeout))
  rw [this, ht, r4]

/-- The timeout of a client, likewise. -/
theorem C65_client_timeout_partial (after : Bool) (net : Net) (c self : Client) (defs defs' : Defs) (t : Rat) (h : Spec.Cfg.Usable c.tcpTimeout)
    (ht : c.tcpTimeout = .fin t) :
    ∃ t', (self.fromDefs net (flt after) (c.updateDefs (flt after) defs)).tcpTimeout = .fin t' ∧ 10 ^ 5 * (t' - t) ≤ t ∧ 10 ^ 5 * (t - t') ≤ t ∧
      (self.fromDefs net (flt after) (c.updateDefs (flt after) defs)).updateDefs (flt after) defs' .pvaConnTmo =
        c.updateDefs (flt after) defs .pvaConnTmo := by
  obtain ⟨q, hq, h1, h2⟩ := h
  obtain rfl : t = q := by rw [ht] at hq; cases hq; rfl
  obtain ⟨t', r1, r2, r3, r4⟩ := write_read after self.tcpTimeout t h1 h2
  have : (self.fromDefs net (flt after) (c.updateDefs (flt after) defs)).tcpTimeout = .fin t' := by rw [← r1, ← ht]; rfl
  refine ⟨t', this, r2, r3, ?_⟩
  show some ((flt after).print ((flt after).unscale (self.fromDefs net (flt after) (c.updateDefs (flt after) defs)).tcpTimeout)) =
    some ((flt after).print ((flt after).unscale c.tcpTimeout))
  rw [this, ht, r4]

/-- the hypotheses hold for the default -/
example : Spec.Cfg.Usable ({} : Server).tcpTimeout := ⟨40, rfl, by norm_num, by norm_num⟩

/-- A number of at most six digits given for the timeout is scaled by 4/3, and written out as the same number. -/
theorem C65_timeout_text (after : Bool) (net : Net) (self : Client) (defs defs' : Defs) (s : Str) (M : Nat) (E : Int) (hd : defs .pvaConnTmo = some s)
    (hs : Says s false M 10 E) (h0 : 0 < M) (h6 : M < 10 ^ 6) (h1 : 3 * den 10 E ≤ 2 * num M 10 E) (h2 : num M 10 E ≤ 2 ^ 62 * den 10 E) :
    ∃ (t' : Rat) (s' : Str) (M' : Nat) (E' : Int), (self.fromDefs net (flt after) defs).tcpTimeout = .fin t' ∧
      10 ^ 6 * (t' - (num M 10 E : Rat) / den 10 E * (4 / 3)) ≤ (num M 10 E : Rat) / den 10 E ∧
      10 ^ 6 * ((num M 10 E : Rat) / den 10 E * (4 / 3) - t') ≤ (num M 10 E : Rat) / den 10 E ∧
      (self.fromDefs net (flt after) defs).updateDefs (flt after) defs' .pvaConnTmo = some s' ∧
      Stands s' false M' E' ∧ num M' 10 E' * den 10 E = num M 10 E * den 10 E' := by
  have hdp := den_pos (show 0 < 10 by decide) E
  have hdr : (0 : Rat) < den 10 E := by exact_mod_cast hdp
  have q1 : 11 / 10 ≤ (num M 10 E : Rat) / den 10 E := by
    rw [le_div_iff₀ hdr]
    have : (3 : Rat) * den 10 E ≤ 2 * num M 10 E := by exact_mod_cast h1
    linarith
  have q2 : (num M 10 E : Rat) / den 10 E ≤ 2 ^ 62 := by
    rw [div_le_iff₀ hdr]
    exact_mod_cast h2
  obtain ⟨t', u, r1, r2, r3, r4, r5, r6⟩ := there_and_back after self.tcpTimeout hs _ rfl q1 (by norm_num at q2 ⊢; linarith)
  have hz : ∃ z, 10 ^ 5 ≤ M * 10 ^ z ∧ M * 10 ^ z < 10 ^ 6 := by
    by_cases c5 : 10 ^ 5 ≤ M
    · exact ⟨0, by omega, by omega⟩
    by_cases c4 : 10 ^ 4 ≤ M
    · exact ⟨1, by omega, by omega⟩
    by_cases c3 : 10 ^ 3 ≤ M
    · exact ⟨2, by omega, by omega⟩
    by_cases c2 : 10 ^ 2 ≤ M
    · exact ⟨3, by omega, by omega⟩
    by_cases c1 : 10 ^ 1 ≤ M
    · exact ⟨4, by omega, by omega⟩
    · exact ⟨5, by omega, by omega⟩
  obtain ⟨z, z1, z2⟩ := hz
  have hr := ratio_zeros M (M * 10 ^ z) z E (E - z) rfl (by omega)
  have hD : ((dn (E - z) : Nat) : Rat) ≠ 0 := by exact_mod_cast Nat.ne_of_gt (dn_pos _)
  have hv : (num M 10 E : Rat) / den 10 E = ((M * 10 ^ z) * up (E - z) : Nat) / (dn (E - z) : Rat) := by
    rw [div_eq_div_iff (ne_of_gt hdr) hD]
    exact_mod_cast hr
  have e5 : E - (z : Int) = E - z + 5 - 5 := by omega
  have ht : text u = digitsText (M * 10 ^ z) (E - z + 5) := by
    refine near_text u _ _ r4 z1 z2 ?_
    rw [← e5, ← hv]
    exact r6
  obtain ⟨M', E', hst, -, hv'⟩ := digits_says (M * 10 ^ z) (E - z + 5) z1 z2
  have hc : (self.fromDefs net (flt after) defs).tcpTimeout = .fin t' := by
    rw [← r1]
    show applyTimeout _ _ (pickOne defs [.pvaConnTmo]) = _
    simp only [pickOne, hd]
    rfl
  refine ⟨t', _, M', E', hc, r2, r3, ?_, hst, ?_⟩
  · show some ((flt after).print ((flt after).unscale (self.fromDefs net (flt after) defs).tcpTimeout)) = _
    rw [hc, r5, ht]
  · rw [← e5, ← hv] at hv'
    have hE : ((den 10 E' : Nat) : Rat) ≠ 0 := by exact_mod_cast Nat.ne_of_gt (den_pos (by decide) _)
    rw [div_eq_div_iff hE (ne_of_gt hdr)] at hv'
    exact_mod_cast hv'

/-- "30": the hypotheses hold -/
example : Says [0x33, 0x30] false 30 10 0 ∧ 3 * den 10 0 ≤ 2 * num 30 10 0 ∧ num 30 10 0 ≤ 2 ^ 62 * den 10 0 := by
  refine ⟨?_, by decide, by decide⟩
  refine Spec.RealParse.Around.pos (b := []) (s := [0x33, 0x30]) (b' := []) (fun c h => by cases h) ?_ (fun c h => by cases h)
  exact Spec.RealParse.Number.dec (m := [0x33, 0x30]) (x := []) (k := 0) (X := 0) (.whole ((digits_iff (by decide) _ _).mpr (by decide))) .none

theorem m1 (O n : Nat) (hlo : 1234565 < n) : 10 ^ 5 * (O * up 1) ≤ n * O * dn 1 := by
  show 10 ^ 5 * (O * 10) ≤ n * O * 1
  nlinarith
theorem m2 (O n : Nat) (hO : 0 < O) (hhi : n < 1234575) : n * O * dn 1 < 10 ^ (5 + 1) * (O * up 1) := by
  show n * O * 1 < 10 ^ (5 + 1) * (O * 10)
  have := Nat.mul_lt_mul_of_pos_right hhi hO
  omega
theorem m3 (O n : Nat) (hO : 0 < O) (hhi : n < 1234575) : 2 * (n * O * dn (6 - 5)) < 2 * (123457 * (O * up (6 - 5))) + O * up (6 - 5) := by
  show 2 * (n * O * 1) < 2 * (123457 * (O * 10)) + O * 10
  nlinarith
theorem m4 (O n : Nat) (hO : 0 < O) (hlo : 1234565 < n) : 2 * (123457 * (O * up (6 - 5))) < 2 * (n * O * dn (6 - 5)) + O * up (6 - 5) := by
  show 2 * (123457 * (O * 10)) < 2 * (n * O * 1) + O * 10
  nlinarith

theorem print_million (after : Bool) (t : Rat) (n b : Nat) (h1 : rounded (t / tmoScale) = b) (hu : units 52 11 b = some ((n * one 52 11 : Nat) : Int))
    (hlo : 1234565 < n) (hhi : n < 1234575) : (flt after).print ((flt after).unscale (.fin t)) = digitsText 123457 6 := by
  have hpos : 0 < n * one 52 11 := Nat.mul_pos (by omega) Lemmas.RealBack.one_pos
  have hval : ((n * one 52 11 : Nat) : Rat) / T = n := by
    have : (((n * one 52 11 : Nat) : Nat) : Rat) = n * T := by rw [← T_one]; exact Nat.cast_mul _ _
    rw [this, mul_div_assoc, div_self (ne_of_gt T_pos), mul_one]
  have hlo' : (1234565 : Rat) < n := by exact_mod_cast hlo
  have hhi' : (n : Rat) < 1234575 := by exact_mod_cast hhi
  show (flt after).print (ofBits (rounded (t / tmoScale))) = _
  rw [h1, ofBits_units hu hpos, print_text after hu hpos (by rw [hval]; linarith) (by rw [hval]; norm_num; linarith)]
  have hf : firstDigit (n * one 52 11) = 6 := by
    exact first_eq _ hpos 6 1 5 (by decide) (m1 (one 52 11) n hlo) (m2 (one 52 11) n Lemmas.RealBack.one_pos hhi)
  have hs : sixDigits (n * one 52 11) = 123457 := by
    rw [six_eq _ _ hf]
    exact roundDiv_eq _ _ _ (Nat.mul_pos Lemmas.RealBack.one_pos (up_pos _)) (m3 (one 52 11) n Lemmas.RealBack.one_pos hhi) (m4 (one 52 11) n Lemmas.RealBack.one_pos hlo)
  unfold text
  rw [hs, hf, if_neg (by decide)]

/-- Contrary to C65: two different timeouts are written as the same text, and so can not both be restored. -/
theorem C65_timeout_lossy : ∃ t1 t2 : Rat, t1 ≠ t2 ∧ Spec.Cfg.Usable (.fin t1) ∧ Spec.Cfg.Usable (.fin t2) ∧ ofBits (toBits (.fin t1)) = .fin t1 ∧
    ofBits (toBits (.fin t2)) = .fin t2 ∧ ∀ (after : Bool) (c : Client) (defs : Defs),
      ({ c with tcpTimeout := .fin t1 } : Client).updateDefs (flt after) defs = ({ c with tcpTimeout := .fin t2 } : Client).updateDefs (flt after) defs := by
  refine ⟨7069899852961109 / 4294967296, 1646092, by norm_num, ⟨_, rfl, by norm_num, by norm_num⟩, ⟨_, rfl, by norm_num, by norm_num⟩,
    by decide +kernel, by decide +kernel, fun after c defs => ?_⟩
  have e1 := print_million after (7069899852961109 / 4294967296) 1234567 0x4132d68700000000 (by decide +kernel) (by decide +kernel) (by decide) (by decide)
  have e2 := print_million after 1646092 1234569 0x4132d68900000000 (by decide +kernel) (by decide +kernel) (by decide) (by decide)
  unfold Client.updateDefs
  rw [e1, e2]

end Pvxs.Props.ConfigTime
