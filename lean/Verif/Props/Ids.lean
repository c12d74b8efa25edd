import Verif.Model.Ids
import Verif.Spec.Ids
/-
C39: numbers in use are distinct.
-/
namespace Pvxs.Props.Id
open Pvxs.Ids Spec.Ids

theorem succ_lt (n : Nat) : succ n < 2 ^ 32 := Nat.mod_lt _ (by decide)

theorem scan_some (used : Nat → Bool) (f n m : Nat) (hn : n < 2 ^ 32) (h : scan used f n = some m) : used m = false ∧ m < 2 ^ 32 := by
  induction f generalizing n with
  | zero => cases h
  | succ f ih =>
    unfold scan at h
    split at h
    · exact ih (succ n) (succ_lt n) h
    · rename_i hu
      injection h with h
      subst h
      exact ⟨by simpa using hu, hn⟩

theorem scan_none (used : Nat → Bool) (f n : Nat) (hn : n < 2 ^ 32) (h : scan used f n = none) : ∀ k < f, used ((n + k) % 2 ^ 32) = true := by
  induction f generalizing n with
  | zero => intro k hk; omega
  | succ f ih =>
    intro k hk
    unfold scan at h
    split at h
    · rename_i hu
      cases k with
      | zero => rw [Nat.add_zero, Nat.mod_eq_of_lt hn]; exact hu
      | succ k =>
        have := ih (succ n) (succ_lt n) h k (by omega)
        rw [show (succ n + k) % 2 ^ 32 = (n + (k + 1)) % 2 ^ 32 by unfold succ; omega] at this
        exact this
    · cases h

theorem fresh_none (used : Nat → Bool) (n : Nat) (hn : n < 2 ^ 32) (h : fresh used n = none) : ∀ m < 2 ^ 32, used m = true := by
  intro m hm
  have := scan_none used (2 ^ 32) n hn h ((m + 2 ^ 32 - n) % 2 ^ 32) (Nat.mod_lt _ (by decide))
  rw [show (n + (m + 2 ^ 32 - n) % 2 ^ 32) % 2 ^ 32 = m by omega] at this
  exact this

theorem used_iff (t : Tab) (n : Nat) : t.used n = true ↔ n ∈ t.tab.map (·.1) := by
  unfold Tab.used
  induction t.tab with
  | nil => simp
  | cons p l ih =>
    rw [List.lookup_cons]
    by_cases h : n = p.1
    · subst h; simp
    · have : (n == p.1) = false := by simpa using h
      rw [this]
      simp only [ih, List.map_cons, List.mem_cons, h, false_or]

/-- all numbers in use: there are 2^32 entries -/
theorem all_used (t : Tab) (h : ∀ m < 2 ^ 32, t.used m = true) : 2 ^ 32 ≤ t.tab.length := by
  have h1 := (List.nodup_range (n := 2 ^ 32)).length_le_of_subset (l₂ := t.tab.map (·.1)) (by
    intro m hm
    exact (used_iff t m).mp (h m (List.mem_range.mp hm)))
  rw [List.length_range, List.length_map] at h1
  exact h1

theorem few (l : List Nat) (hn : l.Nodup) (h : ∀ m ∈ l, m < 2 ^ 32) : l.length ≤ 2 ^ 32 := by
  have := hn.length_le_of_subset (l₂ := List.range (2 ^ 32)) (fun m hm => List.mem_range.mpr (h m hm))
  rwa [List.length_range] at this

/-- what always holds -/
structure Inv (t : Tab) : Prop where
  next : t.next < 2 ^ 32
  distinct : Distinct t.tab
  old : ∀ p ∈ t.tab, p.2 < t.count

theorem filter_fresh (t : Tab) (id : Nat) (h : t.used id = false) : t.tab.filter (fun p => p.1 != id) = t.tab := by
  rw [List.filter_eq_self]
  intro p hp
  have : id ∉ t.tab.map (·.1) := by
    intro hm
    rw [← used_iff, h] at hm
    cases hm
  simp only [bne_iff_ne, ne_eq]
  intro he
  exact this (he ▸ List.mem_map_of_mem hp)

theorem notin_of_unused {t : Tab} {id : Nat} (h : t.used id = false) : id ∉ t.tab.map (·.1) := by
  intro hm
  rw [← used_iff, h] at hm
  cases hm

theorem inv_insert {t : Tab} (h : Inv t) (id nx : Nat) (hid : t.used id = false) (hlt : id < 2 ^ 32) (hnx : nx < 2 ^ 32) :
    Inv { ({ t with next := nx } : Tab).insert id t.count with count := t.count + 1 } ∧
      (({ t with next := nx } : Tab).insert id t.count).tab = (id, t.count) :: t.tab := by
  have e : (({ t with next := nx } : Tab).insert id t.count).tab = (id, t.count) :: t.tab := by
    show (id, t.count) :: t.tab.filter _ = _
    rw [filter_fresh t id hid]
  refine ⟨⟨hnx, ?_, ?_⟩, e⟩
  · show Distinct (({ t with next := nx } : Tab).insert id t.count).tab
    rw [e]
    refine ⟨?_, ?_, ?_⟩
    · rw [List.map_cons, List.nodup_cons]
      exact ⟨notin_of_unused hid, h.distinct.numbers⟩
    · rw [List.map_cons, List.nodup_cons]
      refine ⟨?_, h.distinct.objects⟩
      intro hm
      obtain ⟨p, hp, hq⟩ := List.mem_map.mp hm
      have := h.old p hp
      simp only at hq
      omega
    · intro p hp
      rcases List.mem_cons.mp hp with rfl | hp
      · exact hlt
      · exact h.distinct.range p hp
  · intro p hp
    have hp : p ∈ (({ t with next := nx } : Tab).insert id t.count).tab := hp
    rw [e] at hp
    show p.2 < t.count + 1
    rcases List.mem_cons.mp hp with rfl | hp
    · exact Nat.lt_succ_self _
    · exact Nat.lt_succ_of_lt (h.old p hp)

theorem gives_of {t : Tab} (id : Nat) (hid : t.used id = false) (hlt : id < 2 ^ 32) {tab : List (Nat × Nat)}
    (e : tab = (id, t.count) :: t.tab) : Gives t.tab tab t.count :=
  ⟨id, hlt, fun p hp he => notin_of_unused hid (he ▸ List.mem_map_of_mem hp), fun p => by rw [e, List.mem_cons]⟩

theorem inv_server {t : Tab} (h : Inv t) (c : Bool) : Inv (serverCreate t c) := by
  unfold serverCreate
  split
  · exact h
  split
  · exact h
  split
  · exact ⟨h.next, h.distinct, h.old⟩
  · rename_i sid hs
    obtain ⟨h1, h2⟩ := scan_some _ _ _ _ h.next hs
    cases c with
    | false => exact ⟨succ_lt sid, h.distinct, h.old⟩
    | true => exact (inv_insert h sid (succ sid) h1 h2 (succ_lt sid)).1

theorem server_ok (l : List Bool) : Inv (serverRun l) ∧ (serverRun l).stuck = false ∧ (serverRun l).tab.length ≤ 0xffffffff := by
  unfold serverRun
  generalize ht : ({ next := 0x07050301 } : Tab) = t
  have h0 : Inv t ∧ t.stuck = false ∧ t.tab.length ≤ 0xffffffff := by
    subst ht; exact ⟨⟨by decide, ⟨by simp, by simp, by simp⟩, by simp⟩, rfl, by simp⟩
  clear ht
  induction l generalizing t with
  | nil => exact h0
  | cons c l ih =>
    refine ih (serverCreate t c) ?_
    obtain ⟨hi, hs, hl⟩ := h0
    refine ⟨inv_server hi c, ?_⟩
    unfold serverCreate
    rw [hs, if_neg (by decide)]
    split
    · exact ⟨hs, hl⟩
    · rename_i hne
      split
      · rename_i hf
        have := all_used t (fresh_none _ _ hi.next hf)
        omega
      · rename_i sid hf
        obtain ⟨h1, h2⟩ := scan_some _ _ _ _ hi.next hf
        cases c with
        | false => exact ⟨rfl, hl⟩
        | true =>
          have := (inv_insert hi sid (succ sid) h1 h2 (succ_lt sid)).2
          refine ⟨rfl, ?_⟩
          show (({ t with next := succ sid } : Tab).insert sid t.count).tab.length ≤ _
          rw [this, List.length_cons]
          omega

/-- The channels of one client of a server have distinct numbers, for any number of requests: also after the counter has wrapped. -/
theorem C39_server (l : List Bool) : Distinct (serverRun l).tab := (server_ok l).1.distinct

/-- A channel which is claimed gets a number which is free, unless 2^32-1 are in use, when nothing changes; a channel which is not
claimed leaves no trace. -/
theorem C39_server_gives (l : List Bool) :
    (if (serverRun l).tab.length = 0xffffffff then (serverRun (l ++ [true])).tab = (serverRun l).tab
     else Gives (serverRun l).tab (serverRun (l ++ [true])).tab (serverRun l).count) ∧
    (serverRun (l ++ [false])).tab = (serverRun l).tab := by
  have e : ∀ c, serverRun (l ++ [c]) = serverCreate (serverRun l) c := by intro c; simp [serverRun]
  rw [e, e]
  obtain ⟨hi, hs, hl⟩ := server_ok l
  generalize serverRun l = t at hi hs hl
  refine ⟨?_, ?_⟩
  · split
    · rename_i hf
      unfold serverCreate
      rw [hs, if_neg (by decide), if_pos hf]
    · rename_i hne
      unfold serverCreate
      rw [hs, if_neg (by decide), if_neg hne]
      split
      · rename_i hf
        have := all_used t (fresh_none _ _ hi.next hf)
        omega
      · rename_i sid hf
        obtain ⟨h1, h2⟩ := scan_some _ _ _ _ hi.next hf
        exact gives_of sid h1 h2 (inv_insert hi sid (succ sid) h1 h2 (succ_lt sid)).2
  · unfold serverCreate
    split
    · rfl
    split
    · rfl
    split
    · rfl
    · rfl

theorem inv_request {t : Tab} (h : Inv t) : Inv (clientRequest t) := by
  unfold clientRequest
  split
  · exact h
  split
  · exact ⟨h.next, h.distinct, h.old⟩
  · rename_i i hs
    obtain ⟨h1, h2⟩ := scan_some _ _ _ _ h.next hs
    exact (inv_insert h i (succ i) h1 h2 (succ_lt i)).1

theorem inv_release {t : Tab} (h : Inv t) (i : Nat) : Inv (clientRelease t i) := by
  have hsub : (clientRelease t i).tab.Sublist t.tab := List.filter_sublist
  exact ⟨h.next, ⟨(hsub.map _).nodup h.distinct.numbers, (hsub.map _).nodup h.distinct.objects, fun p hp => h.distinct.range p (hsub.subset hp)⟩,
    fun p hp => h.old p (hsub.subset hp)⟩

theorem request_ok (l : List Op) : Inv (reqRun l) := by
  unfold reqRun
  generalize ht : ({ next := 0x10002000 } : Tab) = t
  have h0 : Inv t := by subst ht; exact ⟨by decide, ⟨by simp, by simp, by simp⟩, by simp⟩
  clear ht
  induction l generalizing t with
  | nil => exact h0
  | cons o l ih =>
    refine ih (reqStep t o) ?_
    cases o with
    | request => exact inv_request h0
    | release i => exact inv_release h0 i

/-- The requests of a client on one connection have distinct numbers, for any history. -/
theorem C39_request (l : List Op) : Distinct (reqRun l).tab := (request_ok l).distinct

/-- A request gets a number which is free, unless all are in use; giving back a number takes away just that. -/
theorem C39_request_gives (l : List Op) (hs : (reqRun l).stuck = false) :
    ((reqRun l).tab.length < 2 ^ 32 → (reqRun (l ++ [.request])).stuck = false ∧
      Gives (reqRun l).tab (reqRun (l ++ [.request])).tab (reqRun l).count) ∧
    ∀ i p, p ∈ (reqRun (l ++ [.release i])).tab ↔ p ∈ (reqRun l).tab ∧ p.1 ≠ i := by
  have e : ∀ o, reqRun (l ++ [o]) = reqStep (reqRun l) o := by intro o; simp [reqRun]
  have hi := request_ok l
  simp only [e]
  generalize reqRun l = t at hi hs
  refine ⟨?_, ?_⟩
  · intro hl
    show (clientRequest t).stuck = false ∧ Gives t.tab (clientRequest t).tab t.count
    unfold clientRequest
    rw [hs, if_neg (by decide)]
    split
    · rename_i hf
      have := all_used t (fresh_none _ _ hi.next hf)
      omega
    · rename_i i hf
      obtain ⟨h1, h2⟩ := scan_some _ _ _ _ hi.next hf
      exact ⟨rfl, gives_of i h1 h2 (inv_insert hi i (succ i) h1 h2 (succ_lt i)).2⟩
  · intro i p
    show p ∈ t.tab.filter _ ↔ _
    simp [List.mem_filter]

theorem client_ok (n : Nat) : Inv (clientRun n) ∧ ((clientRun n).stuck = false → (clientRun n).tab.length = n) := by
  induction n with
  | zero => exact ⟨⟨by decide, ⟨by simp [clientRun], by simp [clientRun], by simp [clientRun]⟩, by simp [clientRun]⟩, fun _ => rfl⟩
  | succ n ih =>
    obtain ⟨hi, hl⟩ := ih
    rw [clientRun]
    generalize clientRun n = t at hi hl
    unfold clientBuild
    split
    · rename_i hs
      exact ⟨hi, fun h => by rw [hs] at h; cases h⟩
    · rename_i hs
      have hs : t.stuck = false := by simpa using hs
      split
      · exact ⟨⟨hi.next, hi.distinct, hi.old⟩, fun h => by cases h⟩
      · rename_i cid hf
        obtain ⟨h1, h2⟩ := scan_some _ _ _ _ hi.next hf
        have hx := inv_insert hi cid cid h1 h2 h2
        refine ⟨hx.1, fun _ => ?_⟩
        show (({ t with next := cid } : Tab).insert cid t.count).tab.length = _
        rw [hx.2, List.length_cons, hl hs]

/-- The channels of a client have distinct numbers. -/
theorem C39_channel (n : Nat) : Distinct (clientRun n).tab := (client_ok n).1.distinct

/-- A channel gets a number which no other has or has had, unless there have been 2^32 channels. -/
theorem C39_channel_gives (n : Nat) (hn : n < 2 ^ 32) : (clientRun n).stuck = false ∧
    Gives (clientRun n).tab (clientRun (n + 1)).tab (clientRun n).count := by
  have main : ∀ n, n ≤ 2 ^ 32 → (clientRun n).stuck = false := by
    intro n
    induction n with
    | zero => intro _; rfl
    | succ n ih =>
      intro hn
      have hs := ih (by omega)
      obtain ⟨hi, hl⟩ := client_ok n
      have hl := hl hs
      rw [clientRun]
      generalize clientRun n = t at hi hl hs
      unfold clientBuild
      rw [hs, if_neg (by decide)]
      split
      · rename_i hf
        have := all_used t (fresh_none _ _ hi.next hf)
        omega
      · rfl
  refine ⟨main n (by omega), ?_⟩
  have hs := main n (by omega)
  obtain ⟨hi, hl⟩ := client_ok n
  have hl := hl hs
  rw [clientRun]
  generalize clientRun n = t at hi hl hs
  unfold clientBuild
  rw [hs, if_neg (by decide)]
  split
  · rename_i hf
    have := all_used t (fresh_none _ _ hi.next hf)
    omega
  · rename_i cid hf
    obtain ⟨h1, h2⟩ := scan_some _ _ _ _ hi.next hf
    exact gives_of cid h1 h2 (inv_insert hi cid cid h1 h2 h2).2

/-- The numbers of a client's channels are never given back: when 2^32 channels have existed, at whatever times, the next one is looked
for in an endless loop. -/
theorem C39_channel_hang : (clientRun (2 ^ 32 + 1)).stuck = true := by
  cases hs : (clientRun (2 ^ 32 + 1)).stuck with
  | true => rfl
  | false =>
    obtain ⟨hi, hl⟩ := client_ok (2 ^ 32 + 1)
    have hl := hl hs
    have := few _ hi.distinct.numbers (by
      intro m hm
      obtain ⟨p, hp, rfl⟩ := List.mem_map.mp hm
      exact hi.distinct.range p hp)
    rw [List.length_map, hl] at this
    omega

/-- across the wrap: 0xffffffff and 1 are in use, and the counter is at 0xffffffff; the next two are 0 and 2 -/
example : (clientRequest (clientRequest { next := 0xffffffff, tab := [(0xffffffff, 0), (1, 1)], count := 2 })).tab =
    [(2, 3), (0, 2), (0xffffffff, 0), (1, 1)] := by
  simp [clientRequest, fresh, scan, Tab.used, Tab.insert, succ, List.lookup]

example : (reqRun [.request, .request, .release 0x10002000, .request]).tab = [(0x10002002, 2), (0x10002001, 1)] := by
  simp [reqRun, reqStep, clientRelease, clientRequest, fresh, scan, Tab.used, Tab.insert, succ, List.lookup]

end Pvxs.Props.Id
