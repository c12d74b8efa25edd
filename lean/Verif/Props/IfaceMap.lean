import Verif.Spec.IfaceMap
/-
C107: what the library says of the network interfaces of its host was true of the host not long ago.
-/
namespace Pvxs.Props.Ifm

open Pvxs.Cfg (SockAddr)
open Pvxs.Ifm
open Pvxs.Spec.Ifm (SameIp UpOn HasAddrOn HasAddr BroadcastOf HasBroadcast NoTwice NoAlias Named)

/-! ### addresses -/

theorem same_iff {a b : SockAddr} (h : a ≠ .unspec) : same a b = true ↔ SameIp a b := by
  cases a <;> cases b <;> simp_all [same, key, SameIp]

theorem same_iff' {a b : SockAddr} (h : b ≠ .unspec) : same a b = true ↔ SameIp a b := by
  cases a <;> cases b <;> simp_all [same, key, SameIp]

theorem same_symm {a b : SockAddr} : same a b = same b a := by
  simp only [same]; exact Bool.beq_comm

theorem same_key {a b : SockAddr} : same a b = true ↔ key a = key b := by
  simp [same]

theorem usable_iff {h : Host} {e : Entry} : usable h e = true ↔ e.addr ≠ .unspec ∧ e.name ≠ [] ∧ h.index e.name ≠ 0 ∧ e.up = true := by
  simp [usable, and_assoc]

theorem mem_addAddr {a b : SockAddr} : ∀ {l : List (SockAddr × SockAddr)} {p},
    p ∈ addAddr a b l → p = (a, b) ∨ p ∈ l := by
  intro l
  induction l with
  | nil => intro p hp; simp only [addAddr, List.mem_singleton] at hp; exact .inl hp
  | cons x l ih =>
    intro p hp
    simp only [addAddr] at hp
    split at hp
    · exact .inr hp
    · split at hp
      · rcases List.mem_cons.1 hp with hp | hp
        · exact .inl hp
        · exact .inr hp
      · rcases List.mem_cons.1 hp with hp | hp
        · exact .inr (hp ▸ List.mem_cons_self)
        · rcases ih hp with hp | hp
          · exact .inl hp
          · exact .inr (List.mem_cons_of_mem _ hp)

theorem addAddr_keeps {a b : SockAddr} : ∀ {l : List (SockAddr × SockAddr)} {p}, p ∈ l → p ∈ addAddr a b l := by
  intro l
  induction l with
  | nil => intro p hp; cases hp
  | cons x l ih =>
    intro p hp
    simp only [addAddr]
    split
    · exact hp
    · split
      · exact List.mem_cons_of_mem _ hp
      · rcases List.mem_cons.1 hp with hp | hp
        · exact hp ▸ List.mem_cons_self
        · exact List.mem_cons_of_mem _ (ih hp)

theorem addAddr_has {a b : SockAddr} : ∀ {l : List (SockAddr × SockAddr)},
    ∃ p ∈ addAddr a b l, same p.1 a = true ∧ (p = (a, b) ∨ p ∈ l) := by
  intro l
  induction l with
  | nil => exact ⟨(a, b), by simp [addAddr], by simp [same], .inl rfl⟩
  | cons x l ih =>
    simp only [addAddr]
    split
    · rename_i h
      exact ⟨x, List.mem_cons_self, by rw [same_symm]; exact h, .inr List.mem_cons_self⟩
    · split
      · exact ⟨(a, b), List.mem_cons_self, by simp [same], .inl rfl⟩
      · obtain ⟨p, h1, h2, h3⟩ := ih
        exact ⟨p, List.mem_cons_of_mem _ h1, h2, h3.imp id (List.mem_cons_of_mem _)⟩

/-! ### reading the host -/

/-- what holds of the interfaces found in the entries `l` -/
structure Sound (h : Host) (l : List Entry) (m : Known) : Prop where
  from_ : ∀ i ∈ m, ∃ e ∈ l, usable h e = true ∧ e.name = i.name ∧ h.index e.name = i.index ∧ e.lo = i.lo
  addrs : ∀ i ∈ m, ∀ p ∈ i.addrs, ∃ e ∈ l, usable h e = true ∧ h.index e.name = i.index ∧ p = (e.addr, broadOf e)
  all : ∀ e ∈ l, usable h e = true → ∃ i ∈ m, i.index = h.index e.name ∧ ∃ p ∈ i.addrs, same p.1 e.addr = true
  some_ : ∀ i ∈ m, i.addrs ≠ []
  order : m.Pairwise fun i j => i.index < j.index

theorem addAddr_ne {a b : SockAddr} {l : List (SockAddr × SockAddr)} : addAddr a b l ≠ [] := by
  intro h
  obtain ⟨p, hp, _⟩ := addAddr_has (a := a) (b := b) (l := l)
  rw [h] at hp
  cases hp

theorem mem_put {idx : Nat} {e : Entry} : ∀ {m : Known} {i : Iface}, i ∈ put idx e m →
    i ∈ m ∨ i = ⟨e.name, idx, e.lo, [(e.addr, broadOf e)]⟩ ∨
      ∃ j ∈ m, j.index = idx ∧ i = { j with addrs := addAddr e.addr (broadOf e) j.addrs } := by
  intro m
  induction m with
  | nil => intro i hi; simp only [put, List.mem_singleton] at hi; exact .inr (.inl hi)
  | cons j m ih =>
    intro i hi
    simp only [put] at hi
    split at hi
    · rename_i hj
      rcases List.mem_cons.1 hi with hi | hi
      · exact .inr (.inr ⟨j, List.mem_cons_self, hj, hi⟩)
      · exact .inl (List.mem_cons_of_mem _ hi)
    · split at hi
      · rcases List.mem_cons.1 hi with hi | hi
        · exact .inr (.inl hi)
        · exact .inl hi
      · rcases List.mem_cons.1 hi with hi | hi
        · exact .inl (hi ▸ List.mem_cons_self)
        · rcases ih hi with hi | hi | ⟨k, hk, h1, h2⟩
          · exact .inl (List.mem_cons_of_mem _ hi)
          · exact .inr (.inl hi)
          · exact .inr (.inr ⟨k, List.mem_cons_of_mem _ hk, h1, h2⟩)

/-- what was known stays known -/
theorem put_keeps {idx : Nat} {e : Entry} : ∀ {m : Known} {i : Iface}, i ∈ m →
    ∃ j ∈ put idx e m, j.index = i.index ∧ ∀ p ∈ i.addrs, p ∈ j.addrs := by
  intro m
  induction m with
  | nil => intro i hi; cases hi
  | cons k m ih =>
    intro i hi
    simp only [put]
    split
    · rcases List.mem_cons.1 hi with hi | hi
      · refine ⟨_, List.mem_cons_self, ?_, ?_⟩
        · rw [hi]
        · intro p hp
          rw [hi] at hp
          exact addAddr_keeps hp
      · exact ⟨i, List.mem_cons_of_mem _ hi, rfl, fun _ hp => hp⟩
    · split
      · exact ⟨i, List.mem_cons_of_mem _ hi, rfl, fun _ hp => hp⟩
      · rcases List.mem_cons.1 hi with hi | hi
        · exact ⟨k, List.mem_cons_self, by rw [hi], fun _ hp => hi ▸ hp⟩
        · obtain ⟨j, hj, h1, h2⟩ := ih hi
          exact ⟨j, List.mem_cons_of_mem _ hj, h1, h2⟩

/-- the new address is known -/
theorem put_has {idx : Nat} {e : Entry} : ∀ {m : Known},
    ∃ j ∈ put idx e m, j.index = idx ∧ ∃ p ∈ j.addrs, same p.1 e.addr = true := by
  intro m
  induction m with
  | nil => exact ⟨_, List.mem_cons_self, rfl, _, List.mem_cons_self, by simp [same]⟩
  | cons k m ih =>
    simp only [put]
    split
    · rename_i hk
      obtain ⟨p, h1, h2, _⟩ := addAddr_has (a := e.addr) (b := broadOf e) (l := k.addrs)
      exact ⟨_, List.mem_cons_self, hk, p, h1, h2⟩
    · split
      · exact ⟨_, List.mem_cons_self, rfl, _, List.mem_cons_self, by simp [same]⟩
      · obtain ⟨j, hj, h1, h2⟩ := ih
        exact ⟨j, List.mem_cons_of_mem _ hj, h1, h2⟩

theorem put_order {idx : Nat} {e : Entry} : ∀ {m : Known}, m.Pairwise (fun i j => i.index < j.index) →
    (put idx e m).Pairwise (fun i j => i.index < j.index) := by
  intro m
  induction m with
  | nil => intro _; simp [put]
  | cons k m ih =>
    intro h
    obtain ⟨h1, h2⟩ := List.pairwise_cons.1 h
    simp only [put]
    split
    · exact List.pairwise_cons.2 ⟨h1, h2⟩
    · rename_i hne
      split
      · rename_i hlt
        refine List.pairwise_cons.2 ⟨?_, h⟩
        intro j hj
        rcases List.mem_cons.1 hj with hj | hj
        · rw [hj]; exact hlt
        · exact Nat.lt_trans hlt (h1 j hj)
      · rename_i hnl
        refine List.pairwise_cons.2 ⟨?_, ih h2⟩
        intro j hj
        rcases mem_put hj with hj | hj | ⟨x, hx, _, hj⟩
        · exact h1 j hj
        · rw [hj]; show k.index < idx; omega
        · rw [hj]; exact h1 x hx

theorem sound_add {h : Host} {l : List Entry} {m : Known} (e : Entry) (hs : Sound h l m) : Sound h (l ++ [e]) (addEntry h m e) := by
  have hl : ∀ {x}, x ∈ l → x ∈ l ++ [e] := fun hx => List.mem_append_left _ hx
  have he : e ∈ l ++ [e] := List.mem_append_right _ List.mem_cons_self
  unfold addEntry
  by_cases hu : usable h e = true
  · rw [if_pos hu]
    refine ⟨?_, ?_, ?_, ?_, put_order hs.order⟩
    · intro i hi
      rcases mem_put hi with hi | hi | ⟨j, hj, h1, hi⟩
      · obtain ⟨x, hx, r⟩ := hs.from_ i hi
        exact ⟨x, hl hx, r⟩
      · rw [hi]; exact ⟨e, he, hu, rfl, rfl, rfl⟩
      · obtain ⟨x, hx, r⟩ := hs.from_ j hj
        rw [hi]; exact ⟨x, hl hx, r⟩
    · intro i hi p hp
      rcases mem_put hi with hi | hi | ⟨j, hj, h1, hi⟩
      · obtain ⟨x, hx, r⟩ := hs.addrs i hi p hp
        exact ⟨x, hl hx, r⟩
      · rw [hi] at hp ⊢
        simp only [List.mem_singleton] at hp
        exact ⟨e, he, hu, rfl, hp⟩
      · rw [hi] at hp ⊢
        rcases mem_addAddr hp with hp | hp
        · exact ⟨e, he, hu, h1.symm, hp⟩
        · obtain ⟨x, hx, r⟩ := hs.addrs j hj p hp
          exact ⟨x, hl hx, r⟩
    · intro x hx hux
      rcases List.mem_append.1 hx with hx | hx
      · obtain ⟨i, hi, h1, p, hp, h2⟩ := hs.all x hx hux
        obtain ⟨j, hj, h3, h4⟩ := put_keeps (idx := h.index e.name) (e := e) hi
        exact ⟨j, hj, h3.trans h1, p, h4 p hp, h2⟩
      · simp only [List.mem_singleton] at hx
        rw [hx]
        exact put_has
    · intro i hi
      rcases mem_put hi with hi | hi | ⟨j, hj, h1, hi⟩
      · exact hs.some_ i hi
      · rw [hi]; simp
      · rw [hi]; exact addAddr_ne
  · rw [if_neg hu]
    refine ⟨?_, ?_, ?_, hs.some_, hs.order⟩
    · intro i hi
      obtain ⟨x, hx, r⟩ := hs.from_ i hi
      exact ⟨x, hl hx, r⟩
    · intro i hi p hp
      obtain ⟨x, hx, r⟩ := hs.addrs i hi p hp
      exact ⟨x, hl hx, r⟩
    · intro x hx hux
      rcases List.mem_append.1 hx with hx | hx
      · exact hs.all x hx hux
      · simp only [List.mem_singleton] at hx
        rw [hx] at hux
        exact absurd hux hu

theorem sound_fold {h : Host} : ∀ (l pre : List Entry) (m : Known), Sound h pre m → Sound h (pre ++ l) (l.foldl (addEntry h) m) := by
  intro l
  induction l with
  | nil => intro pre m hs; simpa using hs
  | cons e l ih =>
    intro pre m hs
    have := ih (pre ++ [e]) (addEntry h m e) (sound_add e hs)
    simpa using this

theorem sound {h : Host} {l : List Entry} (hl : h.entries = some l) : Sound h l (readHost h) := by
  have h0 : Sound h [] [] := ⟨by simp, by simp, by simp, by simp, List.Pairwise.nil⟩
  have := sound_fold l [] [] h0
  simpa [readHost, hl] using this

theorem known_from {h : Host} {i : Iface} (hi : i ∈ readHost h) :
    ∃ e, UpOn h e ∧ e.name = i.name ∧ h.index e.name = i.index ∧ e.lo = i.lo := by
  cases hl : h.entries with
  | none => simp [readHost, hl] at hi
  | some l =>
    obtain ⟨e, he, hu, r⟩ := (sound hl).from_ i hi
    exact ⟨e, ⟨⟨l, hl, he⟩, usable_iff.1 hu⟩, r⟩

theorem known_addr {h : Host} {i : Iface} (hi : i ∈ readHost h) {p} (hp : p ∈ i.addrs) :
    ∃ e, UpOn h e ∧ h.index e.name = i.index ∧ p = (e.addr, broadOf e) := by
  cases hl : h.entries with
  | none => simp [readHost, hl] at hi
  | some l =>
    obtain ⟨e, he, hu, r⟩ := (sound hl).addrs i hi p hp
    exact ⟨e, ⟨⟨l, hl, he⟩, usable_iff.1 hu⟩, r⟩

theorem known_all {h : Host} {e : Entry} (he : UpOn h e) :
    ∃ i ∈ readHost h, i.index = h.index e.name ∧ ∃ p ∈ i.addrs, SameIp p.1 e.addr := by
  obtain ⟨⟨l, hl, hm⟩, hu⟩ := he
  obtain ⟨i, hi, h1, p, hp, h2⟩ := (sound hl).all e hm (usable_iff.2 hu)
  exact ⟨i, hi, h1, p, hp, (same_iff' hu.1).1 h2⟩

theorem known_some {h : Host} {i : Iface} (hi : i ∈ readHost h) : i.addrs ≠ [] := by
  cases hl : h.entries with
  | none => simp [readHost, hl] at hi
  | some l => exact (sound hl).some_ i hi

theorem known_order {h : Host} : (readHost h).Pairwise fun i j => i.index < j.index := by
  cases hl : h.entries with
  | none => simp [readHost, hl]
  | some l => exact (sound hl).order

theorem order_inj : ∀ {m : Known}, m.Pairwise (fun i j => i.index < j.index) → ∀ {i j}, i ∈ m → j ∈ m → i.index = j.index → i = j := by
  intro m
  induction m with
  | nil => intro _ i j hi; cases hi
  | cons k m ih =>
    intro h i j hi hj e
    obtain ⟨h1, h2⟩ := List.pairwise_cons.1 h
    rcases List.mem_cons.1 hi with hi | hi <;> rcases List.mem_cons.1 hj with hj | hj
    · rw [hi, hj]
    · have := h1 j hj; rw [hi] at e; omega
    · have := h1 i hi; rw [hj] at e; omega
    · exact ih h2 hi hj e

theorem find_index {m : Known} (h : m.Pairwise (fun i j => i.index < j.index)) {i : Iface} (hi : i ∈ m) :
    findIndex m i.index = some i := by
  cases hf : findIndex m i.index with
  | none =>
    have := List.find?_eq_none.1 hf i hi
    simp at this
  | some j =>
    have h1 := List.mem_of_find?_eq_some hf
    have h2 := List.find?_some hf
    simp only [beq_iff_eq] at h2
    rw [order_inj h h1 hi h2]

/-! ### the answers of one reading -/

/-- `byAddr` has the addresses and the broadcast addresses -/
theorem mem_byAddr {m : Known} {x : AddrLine} : x ∈ byAddr m ↔
    ∃ i ∈ m, ∃ p ∈ i.addrs, x = (p.1, i, false) ∨ (x = (p.2, i, true) ∧ ∃ ip q, p.2 = .v4 ip q) := by
  simp only [byAddr, List.mem_flatMap, addrLines, List.mem_cons]
  constructor
  · rintro ⟨i, hi, p, hp, h | h⟩
    · exact ⟨i, hi, p, hp, .inl h⟩
    · refine ⟨i, hi, p, hp, .inr ?_⟩
      revert h
      cases h2 : p.2 with
      | v4 a b => intro h; simp at h; exact ⟨h, a, b, rfl⟩
      | unspec => intro h; simp at h
      | v6 a b => intro h; simp at h
  · rintro ⟨i, hi, p, hp, h | ⟨h, ip, q, h2⟩⟩
    · exact ⟨i, hi, p, hp, .inl h⟩
    · refine ⟨i, hi, p, hp, .inr ?_⟩
      rw [h2] at h ⊢
      simp [h]

/-- a line of `byAddr` is about an address of the host -/
theorem line_true {h : Host} {x : AddrLine} (hx : x ∈ byAddr (readHost h)) {a : SockAddr} (hs : same x.1 a = true) :
    (x.2.2 = false → HasAddrOn h x.2.1.index a) ∧ (x.2.2 = true → HasBroadcast h a) := by
  obtain ⟨i, hi, p, hp, hx⟩ := mem_byAddr.1 hx
  obtain ⟨e, he, h1, h2⟩ := known_addr hi hp
  rcases hx with hx | ⟨hx, ip, q, hq⟩
  · subst hx
    refine ⟨fun _ => ⟨e, he, h1, ?_⟩, fun h => by simp at h⟩
    rw [h2] at hs
    exact (same_iff he.2.1).1 hs
  · subst hx
    refine ⟨fun h => (by simp at h), fun _ => ?_⟩
    rw [h2] at hq
    have hb : BroadcastOf e p.2 := by
      have h3 : p.2 = broadOf e := by rw [h2]
      rw [h3]
      simp only [broadOf] at hq ⊢
      cases ha : e.addr with
      | unspec => rw [ha] at hq; simp at hq
      | v6 x y => rw [ha] at hq; simp at hq
      | v4 x y =>
        rw [ha] at hq
        simp only at hq ⊢
        cases hbc : e.bcast with
        | false => rw [hbc] at hq; simp at hq
        | true =>
          rw [hbc] at hq
          simp only [if_true] at hq ⊢
          cases hbd : e.baddr with
          | none => rw [hbd] at hq; simp at hq
          | some b =>
            rw [hbd] at hq
            simp only [Option.getD_some] at hq ⊢
            exact ⟨⟨x, y, ha⟩, hbc, hbd, ip, q, hq⟩
    refine ⟨e, p.2, he, hb, ?_⟩
    obtain ⟨_, _, _, ip', q', h4⟩ := hb
    exact (same_iff (by rw [h4]; simp)).1 hs

theorem find_true {h : Host} {a : SockAddr} {x : AddrLine} (hf : findAddr (readHost h) a = some x) :
    (x.2.2 = false → HasAddrOn h x.2.1.index a) ∧ (x.2.2 = true → HasBroadcast h a) :=
  line_true (List.mem_of_find?_eq_some hf) (List.find?_some (p := fun x : AddrLine => same x.1 a) hf)

theorem sameIp_trans {a b c : SockAddr} (h1 : SameIp a b) (h2 : SameIp b c) : SameIp a c := by
  cases a <;> cases b <;> cases c <;> simp_all [SameIp]

theorem sameIp_symm {a b : SockAddr} (h1 : SameIp a b) : SameIp b a := by
  cases a <;> cases b <;> simp_all [SameIp]

theorem sameIp_same {a b : SockAddr} (h1 : SameIp a b) : same a b = true := by
  cases a <;> cases b <;> simp_all [SameIp, same, key]

/-- an address of the host is found -/
theorem find_addr {h : Host} {a : SockAddr} (ha : HasAddr h a) : findAddr (readHost h) a ≠ none := by
  obtain ⟨e, he, hs⟩ := ha
  obtain ⟨i, hi, _, p, hp, h2⟩ := known_all he
  intro hn
  have := List.find?_eq_none.1 hn (p.1, i, false) (mem_byAddr.2 ⟨i, hi, p, hp, .inl rfl⟩)
  exact this (sameIp_same (sameIp_trans h2 hs))

/-- so is a broadcast address, unless an interface has an address twice -/
theorem find_broadcast {h : Host} {a : SockAddr} (hn : NoTwice h) (ha : HasBroadcast h a) : findAddr (readHost h) a ≠ none := by
  obtain ⟨e, b, he, hb, hs⟩ := ha
  obtain ⟨i, hi, h1, p, hp, h2⟩ := known_all he
  obtain ⟨e', he', h3, h4⟩ := known_addr hi hp
  have : e' = e := hn e' e he' he (h3.trans h1) (by rw [h4] at h2; exact h2)
  subst this
  obtain ⟨⟨x, y, hx⟩, hbc, hbd, u, v, hu⟩ := hb
  have h5 : p.2 = b := by rw [h4]; simp [broadOf, hx, hbc, hbd]
  intro hn
  have := List.find?_eq_none.1 hn (p.2, i, true) (mem_byAddr.2 ⟨i, hi, p, hp, .inr ⟨rfl, u, v, by rw [h5, hu]⟩⟩)
  exact this (by rw [h5]; exact sameIp_same hs)

/-! ### how old an answer is -/

/-- what the library knows is what the host said when it was last asked -/
def Honest (w : World) (now : Nat) (s : State) : Prop := s.known = readHost (w s.updated) ∧ s.updated ≤ now

theorem refresh_honest {w : World} {now t : Nat} {force : Bool} {s : State} (hs : Honest w now s) (h : now ≤ t) :
    Honest w t (refresh w t force s) ∧ t < (refresh w t force s).updated + threshold force := by
  unfold refresh
  split
  · rename_i hc
    refine ⟨⟨hs.1, Nat.le_trans hs.2 h⟩, ?_⟩
    have := hs.2
    omega
  · refine ⟨⟨rfl, Nat.le_refl _⟩, ?_⟩
    show t < t + threshold force
    have : 0 < threshold force := by cases force <;> decide
    omega

theorem honest_le {w : World} {now t : Nat} {s : State} (hs : Honest w now s) (h : now ≤ t) : Honest w t s := ⟨hs.1, Nat.le_trans hs.2 h⟩

theorem tryCache_honest {α : Type} {w : World} {now t1 t2 : Nat} {fn : Known → Option α} {s : State} (hs : Honest w now s) (h1 : now ≤ t1)
    (h2 : t1 ≤ t2) : Honest w t2 (tryCache w t1 t2 fn s).1 := by
  simp only [tryCache]
  have h3 := (refresh_honest (force := false) hs h1).1
  split
  · exact honest_le h3 h2
  · exact (refresh_honest (force := true) h3 h2).1

theorem ask_honest {w : World} {now t1 t2 : Nat} {q : Ask} {s : State} (hs : Honest w now s) (h1 : now ≤ t1) (h2 : t1 ≤ t2) :
    Honest w t2 (ask w t1 t2 q s).1 := by
  have h3 := (refresh_honest (force := false) hs h1).1
  cases q with
  | hasAddress idx a =>
    simp only [ask]
    split
    · exact honest_le hs (Nat.le_trans h1 h2)
    · exact tryCache_honest hs h1 h2
  | nameOfIndex idx => exact tryCache_honest hs h1 h2
  | nameOfAddr a => exact tryCache_honest hs h1 h2
  | indexOf n => exact tryCache_honest hs h1 h2
  | isIface a => exact tryCache_honest hs h1 h2
  | isBroadcast a => exact tryCache_honest hs h1 h2
  | addressOf n => exact (refresh_honest (force := true) h3 h2).1
  | allExternal => exact honest_le h3 h2

theorem start_honest (w : World) (t : Nat) : Honest w t (start w t) := by
  simp [start, refresh, Honest]

theorem after_honest {w : World} : ∀ {l : List Call} {t : Nat} {s : State}, Honest w t s → InOrder t l → Honest w (lastTime t l) (after w s l) := by
  intro l
  induction l with
  | nil => intro t s hs _; exact hs
  | cons c l ih =>
    intro t s hs h
    exact ih (ask_honest hs h.1 h.2.1) h.2.2

/-- the state which the calls `l` leave behind, when the library began at `t0` -/
def reached (w : World) (t0 : Nat) (l : List Call) : State := after w (start w t0) l

theorem reached_honest {w : World} {t0 : Nat} {l : List Call} (h : InOrder t0 l) : Honest w (lastTime t0 l) (reached w t0 l) :=
  after_honest (start_honest w t0) h

/-- a call after other calls -/
def Later (t0 : Nat) (l : List Call) (c : Call) : Prop := InOrder t0 l ∧ lastTime t0 l ≤ c.t1 ∧ c.t1 ≤ c.t2

/-- `t` is at most ten minutes before the call -/
def Within10min (c : Call) (t : Nat) : Prop := t ≤ c.t2 ∧ c.t1 < t + 600 * sec

/-- `t` is at most ten seconds before the call ends -/
def Within10s (c : Call) (t : Nat) : Prop := t ≤ c.t2 ∧ c.t2 < t + 10 * sec

theorem tryCache_some {α : Type} {w : World} {t0 : Nat} {l : List Call} {c : Call} (h : Later t0 l c) {fn : Known → Option α} {x : α}
    (hx : (tryCache w c.t1 c.t2 fn (reached w t0 l)).2 = some x) : ∃ t, Within10min c t ∧ fn (readHost (w t)) = some x := by
  obtain ⟨h0, h1, h2⟩ := h
  obtain ⟨h3, h4⟩ := refresh_honest (force := false) (reached_honest (w := w) h0) h1
  obtain ⟨h5, h6⟩ := refresh_honest (force := true) h3 h2
  simp only [tryCache] at hx
  split at hx
  · rename_i y hy
    refine ⟨_, ⟨Nat.le_trans h3.2 h2, h4⟩, ?_⟩
    rw [← h3.1, hy]; exact hx
  · refine ⟨_, ⟨h5.2, ?_⟩, ?_⟩
    · have h7 : threshold true = 10 * sec := rfl
      rw [h7] at h6
      have h8 : 10 * sec ≤ 600 * sec := by decide
      omega
    · rw [← h5.1]; exact hx

theorem tryCache_none {α : Type} {w : World} {t0 : Nat} {l : List Call} {c : Call} (h : Later t0 l c) {fn : Known → Option α}
    (hx : (tryCache w c.t1 c.t2 fn (reached w t0 l)).2 = none) : ∃ t, Within10s c t ∧ fn (readHost (w t)) = none := by
  obtain ⟨h0, h1, h2⟩ := h
  obtain ⟨h3, h4⟩ := refresh_honest (force := false) (reached_honest (w := w) h0) h1
  obtain ⟨h5, h6⟩ := refresh_honest (force := true) h3 h2
  simp only [tryCache] at hx
  split at hx
  · cases hx
  · exact ⟨_, ⟨h5.2, h6⟩, by rw [← h5.1]; exact hx⟩

/-! ### C107 -/

/-- The wildcard address is an address of each interface, at all times, and the host is not asked. -/
theorem C107_wildcard (w : World) (t0 : Nat) (l : List Call) (c : Call) (idx : Nat) (a : SockAddr) (ha : a.isAny = true) :
    ask w c.t1 c.t2 (.hasAddress idx a) (reached w t0 l) = (reached w t0 l, .yes true) := by
  simp only [ask, ha, if_true]

example : (SockAddr.v4 0 0).isAny = true := by decide

/-- "Yes, the interface of this number has this address": it had it at some time within the last ten minutes. "No": it did not have it at some time within the last ten seconds, or the operating
system gave no answer then. -/
theorem C107_has_address (w : World) (t0 : Nat) (l : List Call) (c : Call) (h : Later t0 l c) (idx : Nat) (a : SockAddr) (ha : a.isAny = false) :
    ((ask w c.t1 c.t2 (.hasAddress idx a) (reached w t0 l)).2 = .yes true → ∃ t, Within10min c t ∧ HasAddrOn (w t) idx a) ∧
    ((ask w c.t1 c.t2 (.hasAddress idx a) (reached w t0 l)).2 = .yes false → ∃ t, Within10s c t ∧ ¬HasAddrOn (w t) idx a) := by
  have key : ∀ h : Host, hasAddress idx a (readHost h) = some () ↔ HasAddrOn h idx a := by
    intro h
    simp only [hasAddress]
    constructor
    · intro hh
      split at hh
      · rename_i i hf
        have hi := List.mem_of_find?_eq_some hf
        have hx := List.find?_some (p := fun i : Iface => i.index == idx) hf
        simp only [beq_iff_eq] at hx
        split at hh
        · rename_i hany
          obtain ⟨p, hp, hs⟩ := List.any_eq_true.1 hany
          obtain ⟨e, he, h1, h2⟩ := known_addr hi hp
          refine ⟨e, he, h1.trans hx, ?_⟩
          rw [h2] at hs
          exact (same_iff he.2.1).1 hs
        · cases hh
      · cases hh
    · rintro ⟨e, he, h1, hs⟩
      obtain ⟨i, hi, h2, p, hp, h3⟩ := known_all he
      have := find_index known_order hi
      rw [h2, h1] at this
      rw [this]
      simp only
      rw [if_pos (List.any_eq_true.2 ⟨p, hp, sameIp_same (sameIp_trans h3 hs)⟩)]
  simp only [ask, ha, toYes, Bool.false_eq_true, if_false, Ans.yes.injEq]
  constructor
  · intro hh
    obtain ⟨x, hx⟩ := Option.isSome_iff_exists.1 hh
    obtain ⟨t, h1, h2⟩ := tryCache_some h hx
    exact ⟨t, h1, (key _).1 h2⟩
  · intro hh
    rw [Option.isSome_eq_false_iff, Option.isNone_iff_eq_none] at hh
    obtain ⟨t, h1, h2⟩ := tryCache_none h hh
    refine ⟨t, h1, fun hc => ?_⟩
    rw [(key _).2 hc] at h2
    cases h2

/-- "Yes, this is an address of an interface" was true at some time within the last ten minutes. "No" was true at some time within the last ten seconds, unless the same address was also the
broadcast address of an interface then. -/
theorem C107_is_iface_partial (w : World) (t0 : Nat) (l : List Call) (c : Call) (h : Later t0 l c) (a : SockAddr) :
    ((ask w c.t1 c.t2 (.isIface a) (reached w t0 l)).2 = .yes true → ∃ t, Within10min c t ∧ HasAddr (w t) a) ∧
    ((ask w c.t1 c.t2 (.isIface a) (reached w t0 l)).2 = .yes false →
      ∃ t, Within10s c t ∧ (¬HasAddr (w t) a ∨ HasBroadcast (w t) a)) := by
  simp only [ask, toYes, Ans.yes.injEq]
  constructor
  · intro hh
    obtain ⟨x, hx⟩ := Option.isSome_iff_exists.1 hh
    obtain ⟨t, h1, h2⟩ := tryCache_some h hx
    refine ⟨t, h1, ?_⟩
    simp only [isIface] at h2
    split at h2
    · rename_i x y hf
      obtain ⟨e, he, _, hs⟩ := (find_true hf).1 rfl
      exact ⟨e, he, hs⟩
    · cases h2
  · intro hh
    rw [Option.isSome_eq_false_iff, Option.isNone_iff_eq_none] at hh
    obtain ⟨t, h1, h2⟩ := tryCache_none h hh
    refine ⟨t, h1, ?_⟩
    cases hf : findAddr (readHost (w t)) a with
    | none => exact .inl fun hc => find_addr hc hf
    | some x =>
      obtain ⟨x, i, b⟩ := x
      cases b with
      | false => simp [isIface, hf] at h2
      | true => exact .inr ((find_true hf).2 rfl)

/-- "Yes, this is the broadcast address of an interface" was true at some time within the last ten minutes. "No" was true at some time within the last ten seconds, unless the same address was also
the address of an interface then, or an interface had some address twice. -/
theorem C107_is_broadcast_partial (w : World) (t0 : Nat) (l : List Call) (c : Call) (h : Later t0 l c) (a : SockAddr) :
    ((ask w c.t1 c.t2 (.isBroadcast a) (reached w t0 l)).2 = .yes true → ∃ t, Within10min c t ∧ HasBroadcast (w t) a) ∧
    ((ask w c.t1 c.t2 (.isBroadcast a) (reached w t0 l)).2 = .yes false →
      ∃ t, Within10s c t ∧ (¬HasBroadcast (w t) a ∨ HasAddr (w t) a ∨ ¬NoTwice (w t))) := by
  simp only [ask, toYes, Ans.yes.injEq]
  constructor
  · intro hh
    obtain ⟨x, hx⟩ := Option.isSome_iff_exists.1 hh
    obtain ⟨t, h1, h2⟩ := tryCache_some h hx
    refine ⟨t, h1, ?_⟩
    simp only [isBroadcast] at h2
    split at h2
    · rename_i x y hf
      exact (find_true hf).2 rfl
    · cases h2
  · intro hh
    rw [Option.isSome_eq_false_iff, Option.isNone_iff_eq_none] at hh
    obtain ⟨t, h1, h2⟩ := tryCache_none h hh
    refine ⟨t, h1, ?_⟩
    cases hf : findAddr (readHost (w t)) a with
    | none =>
      rcases Classical.em (NoTwice (w t)) with hn | hn
      · exact .inl fun hc => find_broadcast hn hc hf
      · exact .inr (.inr hn)
    | some x =>
      obtain ⟨x, i, b⟩ := x
      cases b with
      | true => simp [isBroadcast, hf] at h2
      | false =>
        obtain ⟨e, he, _, hs⟩ := (find_true hf).1 rfl
        exact .inr (.inl ⟨e, he, hs⟩)

/-- The name given for a number was the name of an interface of that number at some time within the last ten minutes; when no name is given, no interface of that number was up at some time within
the last ten seconds. -/
theorem C107_name_of_index (w : World) (t0 : Nat) (l : List Call) (c : Call) (h : Later t0 l c) (idx : Nat) :
    (∀ n, (ask w c.t1 c.t2 (.nameOfIndex idx) (reached w t0 l)).2 = .name (some n) → ∃ t, Within10min c t ∧ Named (w t) n idx) ∧
    ((ask w c.t1 c.t2 (.nameOfIndex idx) (reached w t0 l)).2 = .name none → ∃ t, Within10s c t ∧ ∀ n, ¬Named (w t) n idx) := by
  simp only [ask, Ans.name.injEq]
  constructor
  · intro n hh
    obtain ⟨t, h1, h2⟩ := tryCache_some h hh
    refine ⟨t, h1, ?_⟩
    simp only [nameOfIndex, Option.map_eq_some_iff] at h2
    obtain ⟨i, hf, hn⟩ := h2
    have hi := List.mem_of_find?_eq_some hf
    have hx := List.find?_some (p := fun i : Iface => i.index == idx) hf
    simp only [beq_iff_eq] at hx
    obtain ⟨e, he, h3, h4, _⟩ := known_from hi
    refine ⟨e, he, h3.trans hn, ?_⟩
    rw [← hn, ← h3, h4, hx]
  · intro hh
    obtain ⟨t, h1, h2⟩ := tryCache_none h hh
    refine ⟨t, h1, ?_⟩
    simp only [nameOfIndex, Option.map_eq_none_iff] at h2
    rintro n ⟨e, he, h3, h4⟩
    obtain ⟨i, hi, h5, _⟩ := known_all he
    have := find_index known_order hi
    rw [h5, h3, h4, h2] at this
    cases this

/-- The number given for a name was the number of an interface of that name at some time within the last ten minutes; when it is 0, no interface of that name was up at some time within the last
ten seconds, or some interface had two names then. -/
theorem C107_index_of_partial (w : World) (t0 : Nat) (l : List Call) (c : Call) (h : Later t0 l c) (n : Str) (idx : Nat)
    (hi : (ask w c.t1 c.t2 (.indexOf n) (reached w t0 l)).2 = .index idx) :
    (idx ≠ 0 → ∃ t, Within10min c t ∧ Named (w t) n idx) ∧
    (idx = 0 → ∃ t, Within10s c t ∧ ((∀ k, ¬Named (w t) n k) ∨ ¬NoAlias (w t))) := by
  simp only [ask, Ans.index.injEq] at hi
  have pos : ∀ (hh : Host) (k : Nat), indexOf n (readHost hh) = some k → Named hh n k ∧ k ≠ 0 := by
    intro hh k hk
    simp only [indexOf, Option.map_eq_some_iff] at hk
    obtain ⟨i, hf, hk⟩ := hk
    have hm := List.mem_of_getLast? hf
    obtain ⟨hm, hn⟩ := List.mem_filter.1 hm
    simp only [beq_iff_eq] at hn
    obtain ⟨e, he, h3, h4, _⟩ := known_from hm
    have h5 : hh.index n = k := by rw [← hn, ← h3, h4, hk]
    refine ⟨⟨e, he, h3.trans hn, h5⟩, ?_⟩
    have := he.2.2.2.1
    rw [h3, hn, h5] at this
    exact this
  cases hr : (tryCache w c.t1 c.t2 (indexOf n) (reached w t0 l)).2 with
  | some k =>
    rw [hr] at hi
    simp only [Option.getD_some] at hi
    subst hi
    obtain ⟨t, h1, h2⟩ := tryCache_some h hr
    exact ⟨fun _ => ⟨t, h1, (pos _ _ h2).1⟩, fun h0 => absurd h0 (pos _ _ h2).2⟩
  | none =>
    rw [hr] at hi
    simp only [Option.getD_none] at hi
    refine ⟨fun h0 => absurd hi.symm h0, fun _ => ?_⟩
    obtain ⟨t, h1, h2⟩ := tryCache_none h hr
    refine ⟨t, h1, ?_⟩
    rcases Classical.em (NoAlias (w t)) with hn | hn
    · refine .inl ?_
      rintro k ⟨e, he, h3, h4⟩
      obtain ⟨i, hi, h5, _⟩ := known_all he
      obtain ⟨e', he', h6, h7, _⟩ := known_from hi
      have h8 := hn e' e he' he (h7.trans h5)
      simp only [indexOf, Option.map_eq_none_iff, findName] at h2
      rw [List.getLast?_eq_none_iff] at h2
      have : i ∈ (readHost (w t)).filter fun i => i.name == n :=
        List.mem_filter.2 ⟨hi, by simp only [beq_iff_eq]; rw [← h6, h8, h3]⟩
      rw [h2] at this
      cases this
    · exact .inr hn

/-- The address given for the name of an interface was the address of an interface of that name and number at some time within the last ten minutes. When none is given, no interface of that name
was up at some time within the last ten seconds, or some interface had two names then. -/
theorem C107_address_of_partial (w : World) (t0 : Nat) (l : List Call) (c : Call) (h : Later t0 l c) (n : Str) (a : SockAddr)
    (hi : (ask w c.t1 c.t2 (.addressOf n) (reached w t0 l)).2 = .address a) :
    (a ≠ .unspec → ∃ t idx, Within10min c t ∧ Named (w t) n idx ∧ HasAddrOn (w t) idx a) ∧
    (a = .unspec → ∃ t, Within10s c t ∧ ((∀ k, ¬Named (w t) n k) ∨ ¬NoAlias (w t))) := by
  have pos : ∀ (hh : Host) (b : SockAddr), addressIn n (readHost hh) = some b → ∃ idx, Named hh n idx ∧ HasAddrOn hh idx b ∧ b ≠ .unspec := by
    intro hh b hk
    simp only [addressIn] at hk
    split at hk
    · rename_i i hf
      have hm := List.mem_of_getLast? hf
      obtain ⟨hm, hn⟩ := List.mem_filter.1 hm
      simp only [beq_iff_eq] at hn
      simp only [Option.map_eq_some_iff] at hk
      obtain ⟨p, hp, hb⟩ := hk
      obtain ⟨e, he, h3, h4, _⟩ := known_from hm
      obtain ⟨e', he', h6, h7⟩ := known_addr hm (List.mem_of_head? hp)
      have h8 : b = e'.addr := by rw [← hb, h7]
      refine ⟨i.index, ⟨e, he, h3.trans hn, by rw [← hn, ← h3, h4]⟩, ⟨e', he', h6, ?_⟩, ?_⟩
      · rw [h8]; exact (same_iff he'.2.1).1 (by simp [same])
      · rw [h8]; exact he'.2.1
    · cases hk
  obtain ⟨h0, h1, h2⟩ := h
  obtain ⟨h3, h4⟩ := refresh_honest (force := false) (reached_honest (w := w) h0) h1
  obtain ⟨h5, h6⟩ := refresh_honest (force := true) h3 h2
  have h7 : threshold true = 10 * sec := rfl
  have h8 : threshold false = 600 * sec := rfl
  have h9 : 10 * sec ≤ 600 * sec := by decide
  rw [h7] at h6
  rw [h8] at h4
  simp only [ask, addressOf, Ans.address.injEq] at hi
  cases hr : addressIn n (refresh w c.t2 true (refresh w c.t1 false (reached w t0 l))).known with
  | some b =>
    rw [hr] at hi
    simp only [Option.orElse_some, Option.getD_some] at hi
    subst hi
    rw [h5.1] at hr
    obtain ⟨idx, g1, g2, g3⟩ := pos _ _ hr
    exact ⟨fun _ => ⟨_, idx, ⟨h5.2, by omega⟩, g1, g2⟩, fun hu => absurd hu g3⟩
  | none =>
    rw [hr] at hi
    simp only [Option.orElse_none] at hi
    constructor
    · intro hu
      cases hq : addressIn n (refresh w c.t1 false (reached w t0 l)).known with
      | none => rw [hq] at hi; exact absurd hi.symm hu
      | some b =>
        rw [hq] at hi
        simp only [Option.getD_some] at hi
        subst hi
        rw [h3.1] at hq
        obtain ⟨idx, g1, g2, g3⟩ := pos _ _ hq
        exact ⟨_, idx, ⟨Nat.le_trans h3.2 h2, h4⟩, g1, g2⟩
    · intro _
      refine ⟨_, ⟨h5.2, h6⟩, ?_⟩
      rw [h5.1] at hr
      generalize (refresh w c.t2 true (refresh w c.t1 false (reached w t0 l))).updated = t at hr ⊢
      rcases Classical.em (NoAlias (w t)) with hn | hn
      · refine .inl ?_
        rintro k ⟨e, he, g3, g4⟩
        obtain ⟨i, hi, g5, _⟩ := known_all he
        obtain ⟨e', he', g6, g7, _⟩ := known_from hi
        have g8 := hn e' e he' he (g7.trans g5)
        have hmem : i ∈ (readHost (w t)).filter fun i => i.name == n :=
          List.mem_filter.2 ⟨hi, by simp only [beq_iff_eq]; rw [← g6, g8, g3]⟩
        cases hl : findName (readHost (w t)) n with
        | none =>
          simp only [findName, List.getLast?_eq_none_iff] at hl
          rw [hl] at hmem
          cases hmem
        | some j =>
          simp only [addressIn, hl, Option.map_eq_none_iff, List.head?_eq_none_iff] at hr
          exact known_some (List.mem_filter.1 (List.mem_of_getLast? hl)).1 hr
      · exact .inr hn

/-- Every name given as "external" was the name of an interface at some time within the last ten minutes, and every number of an interface which was up then has a name among them. -/
theorem C107_all_external_partial (w : World) (t0 : Nat) (l : List Call) (c : Call) (h : Later t0 l c) (ns : List Str)
    (hi : (ask w c.t1 c.t2 .allExternal (reached w t0 l)).2 = .names ns) :
    ∃ t, Within10min c t ∧ (∀ n ∈ ns, ∃ idx, Named (w t) n idx) ∧ (∀ e, UpOn (w t) e → ∃ n ∈ ns, Named (w t) n ((w t).index e.name)) := by
  obtain ⟨h0, h1, h2⟩ := h
  obtain ⟨h3, h4⟩ := refresh_honest (force := false) (reached_honest (w := w) h0) h1
  simp only [ask, Ans.names.injEq] at hi
  refine ⟨_, ⟨Nat.le_trans h3.2 h2, h4⟩, ?_⟩
  rw [h3.1] at hi
  generalize (refresh w c.t1 false (reached w t0 l)).updated = t at hi ⊢
  have mem : ∀ n, n ∈ ns ↔ ∃ i ∈ readHost (w t), i.name = n := by
    intro n
    rw [← hi]
    simp [names, List.mem_eraseDups]
  constructor
  · intro n hn
    obtain ⟨i, hm, hn⟩ := (mem n).1 hn
    obtain ⟨e, he, h3, h4, _⟩ := known_from hm
    exact ⟨i.index, e, he, h3.trans hn, by rw [← hn, ← h3, h4]⟩
  · intro e he
    obtain ⟨i, hm, h5, _⟩ := known_all he
    obtain ⟨e', he', h6, h7, _⟩ := known_from hm
    exact ⟨i.name, (mem _).2 ⟨i, hm, rfl⟩, e', he', h6, by rw [← h6, h7, h5]⟩

/-- The name given for an address was the name of an interface which had the address, or had it as its broadcast address, at some time within the last ten minutes; the interface may have had a
second name. When none is given, it was not the address of an interface at some time within the last ten seconds. -/
theorem C107_name_of_addr (w : World) (t0 : Nat) (l : List Call) (c : Call) (h : Later t0 l c) (a : SockAddr) :
    (∀ n, (ask w c.t1 c.t2 (.nameOfAddr a) (reached w t0 l)).2 = .name (some n) →
      ∃ t, Within10min c t ∧ ((∃ idx, Named (w t) n idx ∧ HasAddrOn (w t) idx a) ∨ ((∃ idx, Named (w t) n idx) ∧ HasBroadcast (w t) a))) ∧
    ((ask w c.t1 c.t2 (.nameOfAddr a) (reached w t0 l)).2 = .name none → ∃ t, Within10s c t ∧ ¬HasAddr (w t) a) := by
  simp only [ask, Ans.name.injEq]
  constructor
  · intro n hh
    obtain ⟨t, h1, h2⟩ := tryCache_some h hh
    refine ⟨t, h1, ?_⟩
    simp only [nameOfAddr, Option.map_eq_some_iff] at h2
    obtain ⟨⟨x, i, b⟩, hf, hn⟩ := h2
    simp only at hn
    obtain ⟨i', hi, _, _, hx⟩ := mem_byAddr.1 (List.mem_of_find?_eq_some hf)
    have hii : i = i' := by
      rcases hx with hx | ⟨hx, _⟩ <;> simp only [Prod.mk.injEq] at hx <;> exact hx.2.1
    rw [← hii] at hi
    obtain ⟨e, he, h3, h4, _⟩ := known_from hi
    have hnm : Named (w t) n i.index := ⟨e, he, h3.trans hn, by rw [← hn, ← h3, h4]⟩
    obtain ⟨g1, g2⟩ := find_true hf
    cases b with
    | false => exact .inl ⟨i.index, hnm, g1 rfl⟩
    | true => exact .inr ⟨⟨i.index, hnm⟩, g2 rfl⟩
  · intro hh
    obtain ⟨t, h1, h2⟩ := tryCache_none h hh
    refine ⟨t, h1, fun hc => ?_⟩
    simp only [nameOfAddr, Option.map_eq_none_iff] at h2
    exact find_addr hc h2

/-! ### how often the host is asked -/

/-- two readings which follow each other are ten seconds apart, unless the former found nothing -/
def Apart (w : World) : List Nat → Prop
  | [] => True
  | t :: l => (∀ t', l.head? = some t' → t' + 10 * sec ≤ t ∨ readHost (w t') = []) ∧ Apart w l

/-- the readings of a state -/
def Counted (w : World) (s : State) : Prop := s.reads.head? = some s.updated ∧ s.known = readHost (w s.updated) ∧ Apart w s.reads

theorem refresh_counted {w : World} {t : Nat} {force : Bool} {s : State} (hs : Counted w s) (h : s.updated ≤ t) : Counted w (refresh w t force s) := by
  unfold refresh
  split
  · exact hs
  · rename_i hc
    refine ⟨rfl, rfl, ?_, hs.2.2⟩
    intro t' ht'
    rw [hs.1] at ht'
    simp only [Option.some.injEq] at ht'
    rw [← ht']
    rw [Classical.not_and_iff_not_or_not, Classical.not_not] at hc
    rcases hc with hc | hc
    · left
      have : 10 * sec ≤ threshold force := by cases force <;> decide
      omega
    · right
      rw [← hs.2.1]; exact hc

theorem tryCache_counted {α : Type} {w : World} {t1 t2 : Nat} {fn : Known → Option α} {s : State} (hs : Counted w s) (h1 : s.updated ≤ t1)
    (h2 : t1 ≤ t2) : Counted w (tryCache w t1 t2 fn s).1 := by
  have hh : Honest w t1 s := ⟨hs.2.1, h1⟩
  simp only [tryCache]
  have h3 := refresh_counted (force := false) hs h1
  have h4 := (refresh_honest (force := false) hh (Nat.le_refl _)).1
  split
  · exact h3
  · exact refresh_counted h3 (Nat.le_trans h4.2 h2)

theorem ask_counted {w : World} {t1 t2 : Nat} {q : Ask} {s : State} (hs : Counted w s) (h1 : s.updated ≤ t1) (h2 : t1 ≤ t2) :
    Counted w (ask w t1 t2 q s).1 := by
  have hh : Honest w t1 s := ⟨hs.2.1, h1⟩
  have h3 := refresh_counted (force := false) hs h1
  have h4 := (refresh_honest (force := false) hh (Nat.le_refl _)).1
  cases q with
  | hasAddress idx a =>
    simp only [ask]
    split
    · exact hs
    · exact tryCache_counted hs h1 h2
  | nameOfIndex idx => exact tryCache_counted hs h1 h2
  | nameOfAddr a => exact tryCache_counted hs h1 h2
  | indexOf n => exact tryCache_counted hs h1 h2
  | isIface a => exact tryCache_counted hs h1 h2
  | isBroadcast a => exact tryCache_counted hs h1 h2
  | addressOf n => exact refresh_counted h3 (Nat.le_trans h4.2 h2)
  | allExternal => exact h3

theorem after_counted {w : World} : ∀ {l : List Call} {t : Nat} {s : State}, Counted w s → Honest w t s → InOrder t l → Counted w (after w s l) := by
  intro l
  induction l with
  | nil => intro t s hs _ _; exact hs
  | cons c l ih =>
    intro t s hs hh h
    exact ih (ask_counted hs (Nat.le_trans hh.2 h.1) h.2.1) (ask_honest hh h.1 h.2.1) h.2.2

theorem reached_counted {w : World} {t0 : Nat} {l : List Call} (h : InOrder t0 l) : Counted w (reached w t0 l) := by
  refine after_counted ?_ (start_honest w t0) h
  simp [start, refresh, Counted, Apart]

theorem nothing_known {h : Host} (hn : readHost h = []) : ∀ e, ¬UpOn h e := by
  intro e he
  obtain ⟨i, hi, _⟩ := known_all he
  rw [hn] at hi
  cases hi

/-- Whatever is asked, and however often: the host is asked again only ten seconds after it was last asked, unless it had no interface then which was up. -/
theorem C107_rate (w : World) (t0 : Nat) (l : List Call) (h : InOrder t0 l) (new older : List Nat) (t t' : Nat)
    (hr : (reached w t0 l).reads = new ++ t :: t' :: older) : t' + 10 * sec ≤ t ∨ ∀ e, ¬UpOn (w t') e := by
  have h1 := (reached_counted (w := w) h).2.2
  rw [hr] at h1
  have : ∀ (new : List Nat), Apart w (new ++ t :: t' :: older) → t' + 10 * sec ≤ t ∨ readHost (w t') = [] := by
    intro new
    induction new with
    | nil => intro ha; exact ha.1 t' rfl
    | cons x new ih => intro ha; exact ih ha.2
  exact (this new h1).imp id nothing_known

/-- So on a host which always has an interface that is up, a program cannot make the library read the interfaces more than once in ten seconds. -/
theorem C107_often (w : World) (t0 : Nat) (l : List Call) (h : InOrder t0 l) (hw : ∀ t, ∃ e, UpOn (w t) e) :
    t0 + ((reached w t0 l).reads.length - 1) * (10 * sec) ≤ lastTime t0 l := by
  have hc := reached_counted (w := w) h
  have hh := reached_honest (w := w) h
  have first : ∀ (l : List Call) (s : State), s.reads.getLast? = some t0 → (after w s l).reads.getLast? = some t0 := by
    have rf : ∀ (t : Nat) (f : Bool) (s : State), s.reads.getLast? = some t0 → (refresh w t f s).reads.getLast? = some t0 := by
      intro t f s hs
      unfold refresh
      split
      · exact hs
      · simp only [List.getLast?_cons, hs, Option.getD_some]
    have tc : ∀ {α : Type} (t1 t2 : Nat) (fn : Known → Option α) (s : State), s.reads.getLast? = some t0 → (tryCache w t1 t2 fn s).1.reads.getLast? = some t0 := by
      intro α t1 t2 fn s hs
      simp only [tryCache]
      split
      · exact rf _ _ _ hs
      · exact rf _ _ _ (rf _ _ _ hs)
    intro l
    induction l with
    | nil => intro s hs; exact hs
    | cons c l ih =>
      intro s hs
      refine ih _ ?_
      show (ask w c.t1 c.t2 c.q s).1.reads.getLast? = some t0
      cases c.q with
      | hasAddress idx a =>
        simp only [ask]
        split
        · exact hs
        · exact tc _ _ _ _ hs
      | nameOfIndex idx => exact tc _ _ _ _ hs
      | nameOfAddr a => exact tc _ _ _ _ hs
      | indexOf n => exact tc _ _ _ _ hs
      | isIface a => exact tc _ _ _ _ hs
      | isBroadcast a => exact tc _ _ _ _ hs
      | addressOf n => exact rf _ _ _ (rf _ _ _ hs)
      | allExternal => exact rf _ _ _ hs
  have hl : (reached w t0 l).reads.getLast? = some t0 := first l _ (by simp [start, refresh])
  have count : ∀ (r : List Nat) (x : Nat), Apart w r → r.getLast? = some t0 → r.head? = some x → t0 + (r.length - 1) * (10 * sec) ≤ x := by
    intro r
    induction r with
    | nil => intro x _ _ hx; cases hx
    | cons y r ih =>
      intro x ha hlast hx
      simp only [List.head?_cons, Option.some.injEq] at hx
      rw [← hx]
      cases r with
      | nil =>
        simp only [List.getLast?_singleton, Option.some.injEq] at hlast
        simp [hlast]
      | cons z r =>
        have h1 := ih z ha.2 (by simpa using hlast) rfl
        have h2 : z + 10 * sec ≤ y := by
          rcases ha.1 z rfl with h2 | h2
          · exact h2
          · obtain ⟨e, he⟩ := hw z
            exact absurd he (nothing_known h2 e)
        simp only [List.length_cons, Nat.add_sub_cancel] at h1 ⊢
        rw [Nat.add_mul]
        omega
  exact Nat.le_trans (count _ _ hc.2.2 hl hc.1) hh.2

/-! ### what is false, and that the hypotheses can be met -/

/-- "lo" 127.0.0.1, "eth0" 10.0.0.1 with the broadcast address 10.0.0.3, "eth1" 10.0.0.3 -/
def eLo : Entry := ⟨[108, 111], .v4 0x7f000001 0, true, true, false, none⟩
def eEth0 : Entry := ⟨[101, 48], .v4 0x0a000001 0, true, false, true, some (.v4 0x0a000003 0)⟩
def eEth1 : Entry := ⟨[101, 49], .v4 0x0a000003 0, true, false, false, none⟩
/-- a second name of "eth0" -/
def eAlias : Entry := ⟨[101, 48, 58], .v4 0x0a000009 0, true, false, false, none⟩

/-- if_nametoindex() -/
def numbers : Str → Nat
  | [108, 111] => 1
  | [101, 48] => 2
  | [101, 49] => 3
  | [101, 48, 58] => 2
  | _ => 0

def host : Host := ⟨some [eLo, eEth0], numbers⟩
def clash : Host := ⟨some [eLo, eEth0, eEth1], numbers⟩
def alias_ : Host := ⟨some [eLo, eEth0, eAlias], numbers⟩
def broken : Host := ⟨none, numbers⟩

theorem upOf {l : List Entry} {e : Entry} (he : e ∈ l) (hu : usable ⟨some l, numbers⟩ e = true) : UpOn ⟨some l, numbers⟩ e :=
  ⟨⟨l, rfl, he⟩, usable_iff.1 hu⟩

/-- The loopback interface is among the "external" ones. -/
theorem C107_loopback : ∃ (w : World) (e : Entry), (∀ t, UpOn (w t) e) ∧ e.lo = true ∧
    ∃ ns, (ask w 5 6 .allExternal (reached w 0 [])).2 = .names ns ∧ e.name ∈ ns :=
  ⟨fun _ => host, eLo, fun _ => upOf (by simp [host]) (by decide), rfl, [[108, 111], [101, 48]], by decide, by decide⟩

/-- An address of an interface which is also the broadcast address of another is not taken for an address of the host. -/
theorem C107_clash : ∃ (w : World) (a : SockAddr), (∀ t, HasAddr (w t) a) ∧ (ask w 5 6 (.isIface a) (reached w 0 [])).2 = .yes false :=
  ⟨fun _ => clash, .v4 0x0a000003 0, fun _ => ⟨eEth1, upOf (by simp [clash]) (by decide), by simp [eEth1, SameIp]⟩, by decide⟩

/-- An interface is not found by its second name. -/
theorem C107_alias : ∃ (w : World) (n : Str), (∀ t, ∃ k, Named (w t) n k) ∧ (ask w 5 6 (.indexOf n) (reached w 0 [])).2 = .index 0 ∧
    (ask w 5 6 (.addressOf n) (reached w 0 [])).2 = .address .unspec :=
  ⟨fun _ => alias_, [101, 48, 58], fun _ => ⟨2, eAlias, upOf (by simp [alias_]) (by decide), rfl, rfl⟩, by decide, by decide⟩

/-- address_of() asks the host again whenever ten seconds have passed, and gives an address which the host has no more according to its latest answer. -/
theorem C107_gone : ∃ w : World, (∀ t, 20 * sec ≤ t → ∀ e, UpOn (w t) e → e.name ≠ [101, 48]) ∧
    (ask w (20 * sec) (20 * sec) (.addressOf [101, 48]) (reached w 0 [])).2 = .address (.v4 0x0a000001 0) ∧
    (ask w (20 * sec) (20 * sec) (.addressOf [101, 48]) (reached w 0 [])).1.updated = 20 * sec := by
  refine ⟨fun t => if t < 20 * sec then host else ⟨some [eLo], numbers⟩, ?_, by decide, by decide⟩
  intro t ht e he
  simp only at he
  rw [if_neg (by omega)] at he
  obtain ⟨⟨l, hl, hm⟩, _⟩ := he
  simp only [Option.some.injEq] at hl
  rw [← hl] at hm
  simp only [List.mem_singleton] at hm
  rw [hm]
  decide

/-- One failure of the operating system makes the library forget what it knew, and the next question is answered from nothing or asks again at once. -/
theorem C107_forgets (w : World) (t : Nat) (force : Bool) (s : State) (hf : (w t).entries = none)
    (hold : threshold force ≤ t - s.updated) : (refresh w t force s).known = [] := by
  unfold refresh
  rw [if_neg (by omega)]
  simp [readHost, hf]

/-- So an address which the host has at every moment but one is denied when the operating system cannot answer at that moment. -/
theorem C107_failed : ∃ (w : World) (a : SockAddr), (∀ t, t ≠ 700 * sec → HasAddr (w t) a) ∧
    (ask w (700 * sec) (700 * sec) (.isIface a) (reached w 0 [])).2 = .yes false := by
  refine ⟨fun t => if t = 700 * sec then broken else host, .v4 0x0a000001 0, ?_, by decide⟩
  intro t ht
  simp only
  rw [if_neg ht]
  exact ⟨eEth0, upOf (by simp [host]) (by decide), by simp [eEth0, SameIp]⟩

/-- the hypotheses can be met: questions in order, an interface which is always up, answers of both kinds -/
example : let w : World := fun t => if t < 20 * sec then host else ⟨some [eLo], numbers⟩
    let l : List Call := [⟨5, 6, .isIface (.v4 0x0a000001 77)⟩, ⟨7, 7, .isBroadcast (.v4 0x0a000003 1)⟩, ⟨25 * sec, 25 * sec, .isIface (.v4 1 0)⟩]
    Later 0 l ⟨26 * sec, 27 * sec, .isIface (.v4 0x0a000001 0)⟩ ∧
      (ask w 5 6 (.isIface (.v4 0x0a000001 77)) (start w 0)).2 = .yes true ∧
      (ask w 7 7 (.isBroadcast (.v4 0x0a000003 1)) (start w 0)).2 = .yes true ∧
      (ask w 7 7 (.hasAddress 2 (.v4 0x0a000001 1)) (start w 0)).2 = .yes true ∧
      (ask w 7 7 (.nameOfIndex 2) (start w 0)).2 = .name (some [101, 48]) ∧
      (ask w 7 7 (.nameOfAddr (.v4 0x0a000003 1)) (start w 0)).2 = .name (some [101, 48]) ∧
      (ask w 7 7 (.indexOf [101, 48]) (start w 0)).2 = .index 2 ∧
      (ask w (26 * sec) (27 * sec) (.isIface (.v4 0x0a000001 0)) (reached w 0 l)).2 = .yes false ∧
      (reached w 0 l).reads = [25 * sec, 0] := by
  refine ⟨?_, by decide, by decide, by decide, by decide, by decide, by decide, by decide, by decide⟩
  simp [Later, InOrder, lastTime, sec]

example : ∀ t, ∃ e, UpOn ((fun _ => host : World) t) e := fun _ => ⟨eLo, upOf (by simp [host]) (by decide)⟩

example : (broken).entries = none ∧ threshold true ≤ 10 * sec - (start (fun _ => host) 0).updated := by decide

end Pvxs.Props.Ifm
