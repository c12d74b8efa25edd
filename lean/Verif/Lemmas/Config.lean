import Verif.Spec.Config
import Verif.Props.Scalar
/-
Lemmas about src/config.cpp.
-/
namespace Pvxs.Cfg
open Spec.Cfg
open Wire (Byte)

/-! splitting -/

theorem splitFirst_none {c : Byte} {s : Str} : splitFirst c s = none ↔ c ∉ s := by
  induction s with
  | nil => simp [splitFirst]
  | cons x s ih =>
    unfold splitFirst
    by_cases h : x = c
    · simp [h]
    · rw [if_neg h, Option.map_eq_none_iff, ih]
      simp [Ne.symm h]

theorem splitFirst_mid {c : Byte} {a : Str} (b : Str) (h : c ∉ a) : splitFirst c (a ++ c :: b) = some (a, b) := by
  induction a with
  | nil => simp [splitFirst]
  | cons x a ih =>
    simp only [List.mem_cons, not_or] at h
    rw [List.cons_append, splitFirst, if_neg (Ne.symm h.1), ih h.2]
    rfl

theorem splitLast_none {c : Byte} {s : Str} (h : c ∉ s) : splitLast c s = none := by
  induction s with
  | nil => rfl
  | cons x s ih =>
    simp only [List.mem_cons, not_or] at h
    rw [splitLast, ih h.2]
    simp [Ne.symm h.1]

theorem splitLast_mid {c : Byte} (a : Str) {b : Str} (h : c ∉ b) : splitLast c (a ++ c :: b) = some (a, b) := by
  induction a with
  | nil => simp [splitLast, splitLast_none h]
  | cons x a ih => rw [List.cons_append, splitLast, ih]

/-! numbers as text -/

theorem showNat_chars (n : Nat) : ∀ c ∈ showNat n, 0x30 ≤ c.toNat ∧ c.toNat ≤ 0x39 := by
  induction n using Nat.strongRecOn with
  | ind n ih =>
    rw [showNat]
    have hd : ∀ d, d < 10 → 0x30 ≤ (UInt8.ofNat (0x30 + d)).toNat ∧ (UInt8.ofNat (0x30 + d)).toNat ≤ 0x39 := by
      intro d hd
      rw [UInt8.toNat_ofNat']
      omega
    split
    · intro c hc
      rw [List.mem_singleton] at hc
      subst hc
      exact hd n (by assumption)
    · intro c hc
      rw [List.mem_append, List.mem_singleton] at hc
      rcases hc with hc | hc
      · exact ih (n / 10) (by omega) c hc
      · subst hc; exact hd _ (by omega)

theorem showInt_chars (v : Int) : ∀ c ∈ showInt v, c.toNat = 0x2d ∨ (0x30 ≤ c.toNat ∧ c.toNat ≤ 0x39) := by
  intro c hc
  unfold showInt at hc
  split at hc
  · rcases List.mem_cons.mp hc with rfl | hc
    · exact Or.inl rfl
    · exact Or.inr (showNat_chars _ c hc)
  · exact Or.inr (showNat_chars _ c hc)

theorem not_mem_of {s : Str} {p : Nat → Prop} (h : ∀ c ∈ s, p c.toNat) {c : Byte} (hc : ¬ p c.toNat) : c ∉ s :=
  fun hm => hc (h c hm)

open Props.Scl (C58_text_roundtrip C58_text_roundtrip_unsigned)

/-! one address -/

theorem mcast_iff (a : SockAddr) (h : Valid a) : a.isMCast = true ↔ Multicast a := by
  cases a with
  | unspec => exact absurd h (by simp [Valid])
  | v4 ip p =>
    simp only [SockAddr.isMCast, Multicast, beq_iff_eq, Valid] at *
    omega
  | v6 ip p =>
    simp only [SockAddr.isMCast, Multicast, beq_iff_eq, Valid] at *
    omega

theorem byte_ne {s : Str} {p : Nat → Prop} (h : ∀ c ∈ s, p c.toNat) (n : Byte) (hn : ¬ p n.toNat) : n ∉ s := not_mem_of h hn

/-- the part of a printed address which follows the IP -/
theorem port_chars (p : Nat) : ∀ c ∈ (if p ≠ 0 then 0x3a :: showNat p else [] : Str), 0x30 ≤ c.toNat ∧ c.toNat ≤ 0x3a := by
  intro c hc
  split at hc
  · rcases List.mem_cons.mp hc with rfl | hc
    · decide
    · have := showNat_chars p c hc; omega
  · cases hc

theorem showAddr_chars {net : Net} (hn : Standard net) (a : SockAddr) : ∀ c ∈ showAddr net a,
    c.toNat = 0x2e ∨ (0x30 ≤ c.toNat ∧ c.toNat ≤ 0x3a) ∨ (0x61 ≤ c.toNat ∧ c.toNat ≤ 0x66) ∨
      c.toNat = 0x5b ∨ c.toNat = 0x5d ∨ c.toNat = 0x3c ∨ c.toNat = 0x3e := by
  intro c hc
  cases a with
  | unspec => simp only [showAddr, List.mem_cons, List.not_mem_nil, or_false] at hc; rcases hc with rfl | rfl <;> decide
  | v4 ip p =>
    simp only [showAddr, List.mem_append] at hc
    rcases hc with hc | hc
    · have := hn.chars4 ip c hc; omega
    · have := port_chars p c hc; omega
  | v6 ip p =>
    simp only [showAddr, List.mem_append, List.mem_singleton] at hc
    rcases hc with ((hc | hc) | hc) | hc
    · subst hc; decide
    · have := hn.chars6 ip c hc; omega
    · subst hc; decide
    · have := port_chars p c hc; omega

theorem withPort_show (a : SockAddr) (p d : Nat) (hp : p < 2 ^ 16) :
    withPort a (if p ≠ 0 then some (showNat p) else none) d = a.setPort (if p ≠ 0 then p else d) := by
  split
  · simp only [withPort, C58_text_roundtrip_unsigned p (by omega), Option.bind_some]
    rw [Nat.mod_eq_of_lt hp]
  · rfl

/-- a printed address is read back; without a port it gets the default port -/
theorem setAddress_show {net : Net} (hn : Standard net) (a : SockAddr) (h : Valid a) (d : Nat) :
    setAddress net (showAddr net a) d = some (if a.port = 0 then atPort d a else a) := by
  cases a with
  | unspec => exact absurd h (by simp [Valid])
  | v4 ip p =>
    obtain ⟨h1, h2⟩ := h
    have hc : ∀ c ∈ showAddr net (.v4 ip p), c.toNat = 0x2e ∨ (0x30 ≤ c.toNat ∧ c.toNat ≤ 0x3a) := by
      intro c hc
      simp only [showAddr, List.mem_append] at hc
      rcases hc with hc | hc
      · have := hn.chars4 ip c hc; omega
      · have := port_chars p c hc; omega
    have hl : lookupAddr net false (net.ntop4 ip) = some (.v4 ip 0) := by
      simp [lookupAddr, hn.back4 ip h1]
    unfold setAddress
    rw [splitFirst_none.mpr (byte_ne (p := fun n => n = 0x2e ∨ (0x30 ≤ n ∧ n ≤ 0x3a)) hc 0x5b (by decide))]
    simp only
    rw [if_neg (by rw [List.contains_iff_mem]; exact byte_ne (p := fun n => n = 0x2e ∨ (0x30 ≤ n ∧ n ≤ 0x3a)) hc 0x5d (by decide))]
    have hnc : (0x3a : Byte) ∉ net.ntop4 ip :=
      byte_ne (p := fun n => n = 0x2e ∨ (0x30 ≤ n ∧ n ≤ 0x39)) (hn.chars4 ip) 0x3a (by decide)
    by_cases hp : p = 0
    · subst hp
      simp only [showAddr, ne_eq, not_true_eq_false, if_false, List.append_nil, splitFirst_none.mpr hnc, hl, Option.bind_some]
      rfl
    · have e : showAddr net (.v4 ip p) = net.ntop4 ip ++ 0x3a :: showNat p := by simp [showAddr, hp]
      rw [e, splitFirst_mid _ hnc]
      simp only
      have hpc : (showNat p).contains 0x3a = false := by
        rw [Bool.eq_false_iff, ne_eq, List.contains_iff_mem]
        exact byte_ne (p := fun n => 0x30 ≤ n ∧ n ≤ 0x39) (showNat_chars p) 0x3a (by decide)
      have hs := (hn.size4 ip h1).2
      rw [hpc, if_neg (by decide), if_neg (by unfold scratch; omega), hl]
      have := withPort_show (.v4 ip 0) p d h2
      rw [if_pos hp, if_pos hp] at this
      rw [Option.bind_some, this]
      simp [SockAddr.setPort, SockAddr.port, hp]
  | v6 ip p =>
    obtain ⟨h1, h2⟩ := h
    have hl : lookupAddr net true (net.ntop6 ip) = some (.v6 ip 0) := by
      simp [lookupAddr, hn.back6 ip h1]
    have e : showAddr net (.v6 ip p) = [] ++ 0x5b :: (net.ntop6 ip ++ 0x5d :: (if p ≠ 0 then 0x3a :: showNat p else [])) := by
      simp [showAddr]
    unfold setAddress
    rw [e, splitFirst_mid _ (by simp)]
    simp only
    rw [splitLast_mid _ (byte_ne (p := fun n => 0x30 ≤ n ∧ n ≤ 0x3a) (port_chars p) 0x5d (by decide))]
    simp only
    have hs := hn.size6 ip h1
    rw [if_neg (by unfold scratch; omega), hl, Option.bind_some]
    have e2 : (splitLast 0x3a (if p ≠ 0 then 0x3a :: showNat p else [])).map (·.2) = if p ≠ 0 then some (showNat p) else none := by
      split
      · rw [show (0x3a :: showNat p : Str) = [] ++ 0x3a :: showNat p from rfl,
          splitLast_mid _ (byte_ne (p := fun n => 0x30 ≤ n ∧ n ≤ 0x39) (showNat_chars p) 0x3a (by decide))]
        rfl
      · rfl
    rw [e2, withPort_show _ p d h2]
    by_cases hp : p = 0
    · simp [hp, SockAddr.setPort, SockAddr.port, atPort]
    · simp [hp, SockAddr.setPort, SockAddr.port]

theorem toInt32_id {v : Int} (h : -2 ^ 31 ≤ v ∧ v < 2 ^ 31) : toInt32 v = v := by
  unfold toInt32 intOf intBits
  have e : (256 ^ 4 : Nat) = 4294967296 := rfl
  simp only [e]
  split <;> omega

/-- the endpoint as it is printed -/
theorem parseEndpoint_show {net : Net} (hn : Standard net) (e : Endpoint) (hv : Valid e.addr)
    (ht : e.addr.isMCast → -2 ^ 31 ≤ e.ttl ∧ e.ttl < 2 ^ 31)
    (hi : e.addr.isMCast → (0x2c : Byte) ∉ e.iface) (d : Nat) :
    parseEndpoint net (showEndpoint net e) d =
      some (fixIface net { addr := if e.addr.port = 0 then atPort d e.addr else e.addr,
                           ttl := if e.addr.isMCast ∧ e.ttl ≠ 0 then e.ttl else -1,
                           iface := if e.addr.isMCast then e.iface else [] }) := by
  have hch := showAddr_chars hn e.addr
  have hat : (0x40 : Byte) ∉ showAddr net e.addr := byte_ne
    (p := fun n => n = 0x2e ∨ (0x30 ≤ n ∧ n ≤ 0x3a) ∨ (0x61 ≤ n ∧ n ≤ 0x66) ∨ n = 0x5b ∨ n = 0x5d ∨ n = 0x3c ∨ n = 0x3e) hch 0x40 (by decide)
  have hco : (0x2c : Byte) ∉ showAddr net e.addr := byte_ne
    (p := fun n => n = 0x2e ∨ (0x30 ≤ n ∧ n ≤ 0x3a) ∨ (0x61 ≤ n ∧ n ≤ 0x66) ∨ n = 0x5b ∨ n = 0x5d ∨ n = 0x3c ∨ n = 0x3e) hch 0x2c (by decide)
  have hset := setAddress_show hn e.addr hv d
  unfold showEndpoint
  generalize showAddr net e.addr = A at *
  cases hm : e.addr.isMCast with
  | false =>
    simp only [Bool.false_eq_true, if_false, List.append_nil]
    unfold parseEndpoint
    simp only [splitFirst_none.mpr hat, splitFirst_none.mpr hco, hset]
    simp
  | true =>
    simp only [if_true]
    have ht := ht hm
    have hi := hi hm
    have htc : (0x40 : Byte) ∉ showInt e.ttl := byte_ne (p := fun n => n = 0x2d ∨ (0x30 ≤ n ∧ n ≤ 0x39)) (showInt_chars _) 0x40 (by decide)
    have hpt := C58_text_roundtrip e.ttl ⟨by omega, by omega⟩
    have hi32 := toInt32_id ht
    -- what is before the @
    by_cases h0 : e.ttl = 0
    · simp only [h0, ne_eq, not_true_eq_false, if_false, List.nil_append]
      by_cases hf : e.iface = []
      · simp only [hf, not_true_eq_false, if_false, List.append_nil]
        unfold parseEndpoint
        simp only [splitFirst_none.mpr hat, splitFirst_none.mpr hco, hset]
        simp
      · rw [if_pos hf]
        unfold parseEndpoint
        simp only [splitFirst_mid _ hat, splitFirst_none.mpr hco, hset]
        simp [hi]
    · simp only [ne_eq, h0, not_false_eq_true, if_true]
      have hat2 : (0x40 : Byte) ∉ A ++ 0x2c :: showInt e.ttl := by
        simp only [List.mem_append, List.mem_cons, not_or]
        exact ⟨hat, by decide, htc⟩
      by_cases hf : e.iface = []
      · simp only [hf, not_true_eq_false, if_false, List.append_nil]
        unfold parseEndpoint
        simp only [splitFirst_none.mpr hat2, splitFirst_mid _ hco, hset, hpt]
        simp [hi32]
      · rw [if_pos hf]
        rw [show A ++ (0x2c :: showInt e.ttl ++ 0x40 :: e.iface) = (A ++ 0x2c :: showInt e.ttl) ++ 0x40 :: e.iface by simp]
        unfold parseEndpoint
        simp only [splitFirst_mid _ hat2, splitFirst_mid _ hco, hset, hpt]
        simp [hi32]

/-! lists without duplicates -/

theorem firsts_mem {α : Type} [DecidableEq α] (l : List α) (a : α) : a ∈ firsts l ↔ a ∈ l := by
  induction l with
  | nil => simp [firsts]
  | cons b l ih =>
    simp only [firsts, List.mem_cons, List.mem_filter, ih, ne_eq, decide_eq_true_eq]
    by_cases h : a = b <;> simp [h]

theorem firsts_snoc {α : Type} [DecidableEq α] (l : List α) (a : α) :
    firsts (l ++ [a]) = if a ∈ l then firsts l else firsts l ++ [a] := by
  induction l with
  | nil => simp [firsts]
  | cons b l ih =>
    simp only [List.cons_append, firsts, ih]
    by_cases hb : a = b
    · subst hb
      simp only [List.mem_cons, true_or, if_true]
      split
      · rfl
      · simp
    · by_cases ha : a ∈ l
      · simp [ha]
      · simp [ha, hb]

theorem firsts_nodup {α : Type} [DecidableEq α] (l : List α) : (firsts l).Nodup := by
  induction l with
  | nil => exact List.nodup_nil
  | cons b l ih =>
    simp only [firsts, List.nodup_cons, List.mem_filter]
    exact ⟨by simp, ih.filter _⟩

/-- the map `seen` says where in `done` each key is -/
def Seen (seen : List (Key × Nat)) (done : List Endpoint) : Prop :=
  (∀ k j, (k, j) ∈ seen → (done[j]?).map key = some k) ∧ ∀ e ∈ done, ∃ j, (key e, j) ∈ seen

theorem dedupLoop_merged (rest : List Endpoint) : ∀ (seen : List (Key × Nat)) (done pre : List Endpoint),
    Seen seen done → Merged pre done → Merged (pre ++ rest) (dedupLoop seen done rest) := by
  induction rest with
  | nil => intro seen done pre _ hm; simpa [dedupLoop] using hm
  | cons ep rest ih =>
    intro seen done pre hs hm
    obtain ⟨hm1, hm2⟩ := hm
    have hin : ∀ k, k ∈ pre.map key ↔ k ∈ done.map key := by
      intro k; rw [hm1, firsts_mem]
    rw [dedupLoop, show pre ++ ep :: rest = (pre ++ [ep]) ++ rest by simp]
    cases hf : seen.find? (·.1 = ep.key) with
    | none =>
      have hnot : key ep ∉ done.map key := by
        intro hx
        obtain ⟨e, he, hk⟩ := List.mem_map.mp hx
        obtain ⟨j, hj⟩ := hs.2 e he
        have := List.find?_eq_none.mp hf _ hj
        simp only [decide_eq_true_eq] at this
        exact this hk
      refine ih _ _ _ ⟨?_, ?_⟩ ⟨?_, ?_⟩
      · intro k j hkj
        rcases List.mem_cons.mp hkj with h | h
        · injection h with h1 h2
          subst h1 h2
          simp [key, Endpoint.key]
        · have := hs.1 k j h
          cases hd : done[j]? with
          | none => rw [hd] at this; cases this
          | some x =>
            rw [hd] at this
            have hlt : j < done.length := (List.getElem?_eq_some_iff.mp hd).1
            rw [List.getElem?_append_left hlt, hd]
            exact this
      · intro e he
        rcases List.mem_append.mp he with he | he
        · obtain ⟨j, hj⟩ := hs.2 e he
          exact ⟨j, List.mem_cons_of_mem _ hj⟩
        · rw [List.mem_singleton] at he; subst he
          exact ⟨done.length, List.mem_cons_self ..⟩
      · rw [List.map_append, List.map_append, List.map_singleton, firsts_snoc, if_neg (by rw [hin]; exact hnot), hm1]
      · intro e he
        rcases List.mem_append.mp he with he' | he
        · obtain ⟨⟨x, hx, hx1, hx2⟩, h2⟩ := hm2 e he'
          refine ⟨⟨x, List.mem_append_left _ hx, hx1, hx2⟩, ?_⟩
          intro y hy hyk
          rcases List.mem_append.mp hy with hy | hy
          · exact h2 y hy hyk
          · rw [List.mem_singleton] at hy; subst hy
            exact absurd (hyk ▸ List.mem_map_of_mem he') hnot
        · rw [List.mem_singleton] at he; subst he
          refine ⟨⟨e, List.mem_append_right _ (List.mem_singleton_self _), rfl, rfl⟩, ?_⟩
          intro y hy hyk
          rcases List.mem_append.mp hy with hy | hy
          · exact absurd ((hin _).mp (hyk ▸ List.mem_map_of_mem hy)) hnot
          · rw [List.mem_singleton] at hy; subst hy; exact Int.le_refl _
    | some r =>
      obtain ⟨k, j⟩ := r
      have hk : k = key ep := by
        have h := List.find?_some hf
        exact of_decide_eq_true h
      have hmem := List.mem_of_find?_eq_some hf
      have hat := hs.1 k j hmem
      simp only
      cases hd : done[j]? with
      | none => rw [hd] at hat; cases hat
      | some orig =>
        rw [hd] at hat
        injection hat with hat
        -- the entry is replaced by one with the same key
        generalize hF : (fun orig : Endpoint => if ep.ttl > orig.ttl then { orig with ttl := ep.ttl } else orig) = F
        have hFk : ∀ x, key (F x) = key x := by intro x; subst hF; simp only; split <;> rfl
        have hkeys : (done.modify j F).map key = done.map key := by
          apply List.ext_getElem?
          intro i
          rw [List.getElem?_map, List.getElem?_map, List.getElem?_modify]
          cases done[i]? with
          | none => rfl
          | some x =>
            simp only [Option.map_some]
            split <;> simp [hFk]
        have hlt : j < done.length := (List.getElem?_eq_some_iff.mp hd).1
        have hnd : (done.map key).Nodup := by rw [hm1]; exact firsts_nodup _
        refine ih _ _ _ ⟨?_, ?_⟩ ⟨?_, ?_⟩
        · intro k' j' h'
          rw [← List.getElem?_map, hkeys, List.getElem?_map]
          exact hs.1 k' j' h'
        · intro e he
          have : key e ∈ done.map key := by rw [← hkeys]; exact List.mem_map_of_mem he
          obtain ⟨e', he', hk'⟩ := List.mem_map.mp this
          rw [← hk']; exact hs.2 e' he'
        · rw [hkeys, hm1, List.map_append, List.map_singleton, firsts_snoc, if_pos]
          rw [hin, ← hk, ← hat]
          exact List.mem_map_of_mem (List.mem_of_getElem? hd)
        · intro e he
          obtain ⟨i, hi, hie⟩ := List.getElem_of_mem he
          have hge : (done.modify j F)[i]? = some e := by rw [List.getElem?_eq_getElem hi, hie]
          rw [List.getElem?_modify] at hge
          by_cases hij : j = i
          · subst hij
            rw [hd] at hge
            replace hge : F orig = e := by simpa using hge
            have horig : orig ∈ done := List.mem_of_getElem? hd
            obtain ⟨⟨x, hx, hx1, hx2⟩, h2⟩ := hm2 orig horig
            have hke : key e = key orig := by rw [← hge, hFk]
            have hep : key ep = key orig := by rw [hat, hk]
            have htt : e.ttl = if ep.ttl > orig.ttl then ep.ttl else orig.ttl := by
              rw [← hge, ← hF]; simp only; split <;> rfl
            refine ⟨?_, ?_⟩
            · split at htt
              · exact ⟨ep, List.mem_append_right _ (List.mem_singleton_self _), by rw [hke, hep], htt.symm⟩
              · exact ⟨x, List.mem_append_left _ hx, by rw [hke, hx1], by rw [htt, hx2]⟩
            · intro y hy hyk
              rcases List.mem_append.mp hy with hy | hy
              · have := h2 y hy (by rw [hyk, hke]); split at htt <;> omega
              · rw [List.mem_singleton] at hy; subst hy; split at htt <;> omega
          · have hge' : done[i]? = some e := by
              simpa [hij] using hge
            have hed : e ∈ done := List.mem_of_getElem? hge'
            obtain ⟨⟨x, hx, hx1, hx2⟩, h2⟩ := hm2 e hed
            refine ⟨⟨x, List.mem_append_left _ hx, hx1, hx2⟩, ?_⟩
            intro y hy hyk
            rcases List.mem_append.mp hy with hy | hy
            · exact h2 y hy hyk
            · rw [List.mem_singleton] at hy; subst hy
              exfalso
              have e1 : (done.map key)[i]? = some (key e) := by rw [List.getElem?_map, hge']; rfl
              have e2 : (done.map key)[j]? = some (key e) := by rw [List.getElem?_map, hd, ← hyk, ← hk, ← hat]; rfl
              have hi' : i < (done.map key).length := (List.getElem?_eq_some_iff.mp e1).1
              have hj' : j < (done.map key).length := (List.getElem?_eq_some_iff.mp e2).1
              have := (List.getElem?_inj hi' hnd).mp (e1.trans e2.symm)
              exact hij this.symm

end Pvxs.Cfg
