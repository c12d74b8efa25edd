import Verif.Spec.Beacon
/-
C43: beacons and discovery.  C66: hurryUp().
-/
namespace Pvxs.Props.Bcn
open Wire Udp Pvxs.Beacon Spec.Beacon

/-! ### the list of servers -/

theorem lookup_append (k : Key) (a b : List (Key × Info)) : lookup k (a ++ b) = match lookup k a with | some i => some i | none => lookup k b := by
  unfold lookup
  rw [List.find?_append]
  cases a.find? fun x => decide (x.1 = k) <;> rfl

theorem lookup_cons (k : Key) (x : Key × Info) (l : List (Key × Info)) : lookup k (x :: l) = if x.1 = k then some x.2 else lookup k l := by
  unfold lookup
  rw [List.find?_cons]
  by_cases h : x.1 = k <;> simp [h]

theorem lookup_nil (k : Key) : lookup k [] = none := rfl

theorem lookup_none {k : Key} {l : List (Key × Info)} : lookup k l = none ↔ k ∉ l.map (·.1) := by
  induction l with
  | nil => simp [lookup_nil]
  | cons x l ih =>
    rw [lookup_cons, List.map_cons, List.mem_cons]
    by_cases h : x.1 = k
    · simp [h]
    · rw [if_neg h, ih]
      constructor
      · rintro h1 (h2 | h2)
        · exact h h2.symm
        · exact h1 h2
      · exact fun h1 h2 => h1 (Or.inr h2)

theorem lookup_update (k k' : Key) (i : Info) (l : List (Key × Info)) (h : (lookup k l).isSome = true) :
    lookup k' (update k i l) = if k' = k then some i else lookup k' l := by
  induction l with
  | nil => cases h
  | cons x l ih =>
    unfold update at ih ⊢
    rw [List.map_cons, lookup_cons]
    rw [lookup_cons] at h
    by_cases hx : x.1 = k
    · rw [if_pos hx]
      dsimp only
      by_cases hk : k' = k
      · rw [if_pos hk, if_pos hk.symm]
      · rw [if_neg hk, if_neg fun e => hk e.symm, lookup_cons, if_neg fun e => hk (e.symm.trans hx)]
        clear ih h
        induction l with
        | nil => rfl
        | cons y l ih =>
          rw [List.map_cons, lookup_cons, lookup_cons]
          by_cases hy : y.1 = k
          · rw [if_pos hy]
            dsimp only
            rw [if_neg fun e => hk e.symm, if_neg fun e => hk (e.symm.trans hy), ih]
          · rw [if_neg hy, ih]
    · rw [if_neg hx] at h ⊢
      by_cases hk : x.1 = k'
      · rw [if_pos hk, if_neg fun e => hx (hk.trans e), lookup_cons, if_pos hk]
      · rw [if_neg hk, ih h, lookup_cons, if_neg hk]

theorem keys_update (k : Key) (i : Info) (l : List (Key × Info)) : (update k i l).map (·.1) = l.map (·.1) := by
  unfold update
  rw [List.map_map]
  apply List.map_congr_left
  intro x _
  show (if x.1 = k then (k, i) else x).1 = x.1
  split
  · rename_i h; exact h.symm
  · rfl

theorem lookup_filter (k : Key) (p : Info → Bool) (l : List (Key × Info)) (h : (l.map (·.1)).Nodup) :
    lookup k (l.filter fun x => p x.2) = match lookup k l with | some i => if p i then some i else none | none => none := by
  induction l with
  | nil => rfl
  | cons x l ih =>
    rw [List.map_cons, List.nodup_cons] at h
    rw [List.filter_cons, lookup_cons]
    by_cases hk : x.1 = k
    · rw [if_pos hk]
      dsimp only
      split
      · rw [lookup_cons, if_pos hk]
      · rw [ih h.2, lookup_none.mpr (by rw [← hk]; exact h.1)]
    · rw [if_neg hk]
      split
      · rw [lookup_cons, if_neg hk, ih h.2]
      · exact ih h.2

/-! ### stories -/

theorem status_append (w : Option Who) (a b : List Event) : status w (a ++ b) = status (status w a) b := by
  induction a generalizing w with
  | nil => rfl
  | cons e a ih => exact ih _

theorem story_append (w : Option Who) (a b : List Event) : Story w (a ++ b) ↔ Story w a ∧ Story (status w a) b := by
  induction a generalizing w with
  | nil => simp [Story, status]
  | cons e a ih =>
    rw [List.cons_append]
    cases w with
    | none =>
      simp only [Story, status]
      constructor
      · rintro ⟨h, h2⟩
        rw [if_pos h]
        have := (ih _).mp h2
        exact ⟨⟨h, this.1⟩, this.2⟩
      · rintro ⟨⟨h, h1⟩, h2⟩
        rw [if_pos h] at h2
        exact ⟨h, (ih _).mpr ⟨h1, h2⟩⟩
    | some w =>
      simp only [Story, status]
      constructor
      · rintro ⟨h, h1, h2⟩
        rw [if_neg (by rw [h]; decide)]
        have := (ih _).mp h2
        exact ⟨⟨h, h1, this.1⟩, this.2⟩
      · rintro ⟨⟨h, h1, h2⟩, h3⟩
        rw [if_neg (by rw [h]; decide)] at h3
        exact ⟨h, h1, (ih _).mpr ⟨h2, h3⟩⟩

theorem about_append (k : Key) (a b : List Event) : About k (a ++ b) = About k a ++ About k b := by
  unfold About; exact List.filter_append ..

theorem lastHeard_append (k : Key) (a b : List Op) : lastHeard k (a ++ b) = match lastHeard k b with | some t => some t | none => lastHeard k a := by
  induction a with
  | nil => cases h : lastHeard k b <;> simp [lastHeard, h]
  | cons o a ih =>
    rw [List.cons_append, lastHeard, ih]
    cases h : lastHeard k b <;> simp [lastHeard]

/-! ### the invariant -/

structure Inv (ops : List Op) (evs : List Event) (s : St) : Prop where
  keys : (s.track.map (·.1)).Nodup
  story : ∀ k, Story none (About k evs)
  off : ∀ k, lookup k s.track = none → status none (About k evs) = none
  on : ∀ k i, lookup k s.track = some i → status none (About k evs) = some (i.guid, i.version) ∧ lastHeard k ops = some i.time

theorem poke_track (now : Int) (s : St) : (poke now s).2.track = s.track := by
  unfold poke
  split
  · rfl
  · split <;> rfl

theorem poke_listeners (now : Int) (s : St) : (poke now s).2.listeners = s.listeners := by
  unfold poke
  split
  · rfl
  · split <;> rfl

/-- nothing happens which this is about -/
theorem Inv.same {ops : List Op} {evs : List Event} {s s' : St} (h : Inv ops evs s) (o : Op) (ht : s'.track = s.track) (ho : ∀ k, lastHeard k [o] = none) :
    Inv (ops ++ [o]) (evs ++ []) s' := by
  rw [List.append_nil]
  refine ⟨by rw [ht]; exact h.keys, h.story, fun k => by rw [ht]; exact h.off k, fun k i hi => ?_⟩
  rw [ht] at hi
  refine ⟨(h.on k i hi).1, ?_⟩
  rw [lastHeard_append, ho]
  exact (h.on k i hi).2

theorem lastHeard_beacon (k : Key) (now : Int) (m : Msg) : lastHeard k [.beacon now m] = if m.key = k then some now else none := rfl

/-- what one beacon changes -/
theorem onBeacon_cases (now : Int) (m : Msg) (s : St) :
    (lookup m.key s.track = none ∧ trackLimit ≤ s.track.length ∧ onBeacon now m s = ([], false, s)) ∨
    (lookup m.key s.track = none ∧ s.track.length < trackLimit ∧ (onBeacon now m s).1 = [⟨true, m.version, some m.src, m.key, m.guid, now⟩] ∧
      (onBeacon now m s).2.2.track = s.track ++ [(m.key, ⟨m.guid, m.version, now⟩)]) ∨
    (∃ cur, lookup m.key s.track = some cur ∧ (cur.guid, cur.version) ≠ (m.guid, m.version) ∧
      (onBeacon now m s).1 = [⟨false, cur.version, some m.src, m.key, cur.guid, now⟩, ⟨true, m.version, some m.src, m.key, m.guid, now⟩] ∧
      (onBeacon now m s).2.2.track = update m.key ⟨m.guid, m.version, now⟩ s.track) ∨
    (∃ cur, lookup m.key s.track = some cur ∧ (cur.guid, cur.version) = (m.guid, m.version) ∧ (onBeacon now m s).1 = [] ∧
      (onBeacon now m s).2.2.track = update m.key ⟨m.guid, m.version, now⟩ s.track) := by
  cases h : lookup m.key s.track with
  | none =>
    by_cases hl : s.track.length ≥ trackLimit
    · left
      refine ⟨rfl, hl, ?_⟩
      unfold Pvxs.Beacon.onBeacon
      rw [h]
      simp only [hl, if_true]
    · right; left
      refine ⟨rfl, by omega, ?_⟩
      unfold Pvxs.Beacon.onBeacon
      rw [h]
      simp only [hl, if_false, poke_track, and_self]
  | some cur =>
    right; right
    by_cases hd : cur.guid ≠ m.guid ∨ cur.version ≠ m.version
    · left
      refine ⟨cur, rfl, ?_, ?_⟩
      · intro e
        rw [Prod.mk.injEq] at e
        rcases hd with h | h
        · exact h e.1
        · exact h e.2
      · unfold Pvxs.Beacon.onBeacon
        rw [h]
        simp only [hd, if_true, poke_track, and_self]
    · right
      refine ⟨cur, rfl, ?_, ?_⟩
      · have h1 : cur.guid = m.guid := Classical.byContradiction fun h => hd (Or.inl h)
        have h2 : cur.version = m.version := Classical.byContradiction fun h => hd (Or.inr h)
        rw [h1, h2]
      · unfold Pvxs.Beacon.onBeacon
        rw [h]
        simp only [hd, if_false, and_self]

theorem about_cons (k : Key) (e : Event) (l : List Event) : About k (e :: l) = if e.key = k then e :: About k l else About k l := by
  unfold About
  rw [List.filter_cons]
  simp only [decide_eq_true_eq]

theorem inv_beacon {ops : List Op} {evs : List Event} {s : St} (h : Inv ops evs s) (now : Int) (m : Msg) :
    Inv (ops ++ [.beacon now m]) (evs ++ (onBeacon now m s).1) (onBeacon now m s).2.2 := by
  have other : ∀ k, m.key ≠ k → lastHeard k (ops ++ [.beacon now m]) = lastHeard k ops := by
    intro k hk
    rw [lastHeard_append, lastHeard_beacon, if_neg hk]
  have this' : lastHeard m.key (ops ++ [.beacon now m]) = some now := by rw [lastHeard_append, lastHeard_beacon, if_pos rfl]
  rcases onBeacon_cases now m s with ⟨h1, h2, h3⟩ | ⟨h1, h2, h3, h4⟩ | ⟨cur, h1, h2, h3, h4⟩ | ⟨cur, h1, h2, h3, h4⟩
  · rw [h3]
    dsimp only
    rw [List.append_nil]
    refine ⟨h.keys, h.story, h.off, fun k i hi => ⟨(h.on k i hi).1, ?_⟩⟩
    rw [other k fun e => by rw [e, hi] at h1; cases h1]
    exact (h.on k i hi).2
  · rw [h3]
    have e : ∀ k, About k (evs ++ [⟨true, m.version, some m.src, m.key, m.guid, now⟩]) = About k evs ++ if m.key = k then [⟨true, m.version, some m.src, m.key, m.guid, now⟩] else [] := by
      intro k
      rw [about_append, about_cons]
      rfl
    have l : ∀ k, lookup k (onBeacon now m s).2.2.track = if k = m.key then some ⟨m.guid, m.version, now⟩ else lookup k s.track := by
      intro k
      rw [h4, lookup_append, lookup_cons, lookup_nil]
      by_cases hk : k = m.key
      · rw [if_pos hk, hk, h1]; simp
      · rw [if_neg hk, if_neg fun e => hk e.symm]
        cases lookup k s.track <;> rfl
    refine ⟨?_, fun k => ?_, fun k hk => ?_, fun k i hi => ?_⟩
    · rw [h4, List.map_append, List.nodup_append]
      refine ⟨h.keys, by simp, ?_⟩
      intro a ha b hb
      rw [List.map_cons, List.map_nil, List.mem_singleton] at hb
      rintro rfl
      dsimp only at hb
      subst hb
      exact lookup_none.mp h1 ha
    · rw [e, story_append]
      refine ⟨h.story k, ?_⟩
      split
      · rename_i hk
        rw [← hk, h.off _ h1]
        exact ⟨rfl, trivial⟩
      · trivial
    · rw [l] at hk
      split at hk
      · cases hk
      · rename_i hne
        rw [e, if_neg fun e => hne e.symm, List.append_nil]
        exact h.off k hk
    · rw [l] at hi
      split at hi
      · rename_i hk
        cases hi
        subst hk
        rw [e, if_pos rfl, status_append]
        exact ⟨rfl, this'⟩
      · rename_i hne
        rw [e, if_neg fun e => hne e.symm, List.append_nil, other k fun e => hne e.symm]
        exact h.on k i hi
  · rw [h3]
    have e : ∀ k, About k (evs ++ [⟨false, cur.version, some m.src, m.key, cur.guid, now⟩, ⟨true, m.version, some m.src, m.key, m.guid, now⟩]) =
        About k evs ++ if m.key = k then [⟨false, cur.version, some m.src, m.key, cur.guid, now⟩, ⟨true, m.version, some m.src, m.key, m.guid, now⟩] else [] := by
      intro k
      rw [about_append, about_cons, about_cons]
      dsimp only
      split <;> rfl
    have l : ∀ k, lookup k (onBeacon now m s).2.2.track = if k = m.key then some ⟨m.guid, m.version, now⟩ else lookup k s.track := by
      intro k
      rw [h4, lookup_update _ _ _ _ (by rw [h1]; rfl)]
    refine ⟨by rw [h4, keys_update]; exact h.keys, fun k => ?_, fun k hk => ?_, fun k i hi => ?_⟩
    · rw [e, story_append]
      refine ⟨h.story k, ?_⟩
      split
      · rename_i hk
        rw [← hk, (h.on _ _ h1).1]
        exact ⟨rfl, rfl, rfl, trivial⟩
      · trivial
    · rw [l] at hk
      split at hk
      · cases hk
      · rename_i hne
        rw [e, if_neg fun e => hne e.symm, List.append_nil]
        exact h.off k hk
    · rw [l] at hi
      split at hi
      · rename_i hk
        cases hi
        subst hk
        rw [e, if_pos rfl, status_append]
        exact ⟨rfl, this'⟩
      · rename_i hne
        rw [e, if_neg fun e => hne e.symm, List.append_nil, other k fun e => hne e.symm]
        exact h.on k i hi
  · rw [h3, List.append_nil]
    have l : ∀ k, lookup k (onBeacon now m s).2.2.track = if k = m.key then some ⟨m.guid, m.version, now⟩ else lookup k s.track := by
      intro k
      rw [h4, lookup_update _ _ _ _ (by rw [h1]; rfl)]
    refine ⟨by rw [h4, keys_update]; exact h.keys, h.story, fun k hk => ?_, fun k i hi => ?_⟩
    · rw [l] at hk
      split at hk
      · cases hk
      · exact h.off k hk
    · rw [l] at hi
      split at hi
      · rename_i hk
        cases hi
        subst hk
        exact ⟨by rw [(h.on _ _ h1).1, h2], this'⟩
      · rename_i hne
        rw [other k fun e => hne e.symm]
        exact h.on k i hi

/-- the events of a sweep about one server -/
theorem clean_about (now : Int) (s : St) (hk : (s.track.map (·.1)).Nodup) (k : Key) :
    About k (clean now s).1 = match lookup k s.track with
      | some i => if lost now i then [⟨false, i.version, none, k, i.guid, now⟩] else []
      | none => [] := by
  unfold clean
  dsimp only
  generalize s.track = l at hk
  induction l with
  | nil => rfl
  | cons x l ih =>
    rw [List.map_cons, List.nodup_cons] at hk
    rw [List.filter_cons, lookup_cons]
    by_cases hx : x.1 = k
    · have hn : lookup k l = none := lookup_none.mpr (by rw [← hx]; exact hk.1)
      have ih := ih hk.2
      rw [hn] at ih
      rw [if_pos hx]
      dsimp only at ih ⊢
      split
      · rename_i hl
        rw [List.map_cons, about_cons, if_pos hx, ih, hx]
      · exact ih
    · rw [if_neg hx, ← ih hk.2]
      split
      · rw [List.map_cons, about_cons, if_neg hx]
      · rfl

theorem inv_clean {ops : List Op} {evs : List Event} {s : St} (h : Inv ops evs s) (now : Int) :
    Inv (ops ++ [.clean now]) (evs ++ (clean now s).1) (clean now s).2 := by
  have l : ∀ k, lookup k (clean now s).2.track = match lookup k s.track with | some i => if !lost now i then some i else none | none => none := by
    intro k
    exact lookup_filter k (fun i => !lost now i) s.track h.keys
  have hl : ∀ k, lastHeard k (ops ++ [.clean now]) = lastHeard k ops := fun k => by rw [lastHeard_append]; rfl
  refine ⟨?_, fun k => ?_, fun k hk => ?_, fun k i hi => ?_⟩
  · exact h.keys.sublist (List.Sublist.map _ (List.filter_sublist ..))
  · rw [about_append, story_append]
    refine ⟨h.story k, ?_⟩
    rw [clean_about now s h.keys]
    cases hk : lookup k s.track with
    | none => trivial
    | some i =>
      dsimp only
      split
      · rw [(h.on k i hk).1]
        exact ⟨rfl, rfl, trivial⟩
      · trivial
  · rw [l] at hk
    rw [about_append, status_append, clean_about now s h.keys]
    cases hk' : lookup k s.track with
    | none => exact h.off k hk'
    | some i =>
      rw [hk'] at hk
      dsimp only at hk ⊢
      cases hi : lost now i with
      | true => rw [if_pos rfl]; rfl
      | false => rw [hi] at hk; cases hk
  · rw [l] at hi
    rw [about_append, status_append, clean_about now s h.keys, hl]
    cases hk' : lookup k s.track with
    | none => rw [hk'] at hi; cases hi
    | some j =>
      rw [hk'] at hi
      dsimp only at hi ⊢
      cases hj : lost now j with
      | true => rw [hj] at hi; cases hi
      | false =>
        rw [hj] at hi
        cases hi
        exact h.on k i hk'

theorem inv_step {ops : List Op} {evs : List Event} {s : St} (h : Inv ops evs s) (o : Op) : Inv (ops ++ [o]) (evs ++ (step s o).1.events) (step s o).2 := by
  cases o with
  | beacon now m => exact inv_beacon h now m
  | clean now => exact inv_clean h now
  | hurryUp now => exact h.same _ (poke_track now s) fun _ => rfl
  | tick => exact h.same _ rfl fun _ => rfl
  | listen n => exact h.same _ rfl fun _ => rfl
  | unlisten n => exact h.same _ rfl fun _ => rfl

theorem events_cons (o : Op) (l : List Op) (s : St) : events (run (o :: l) s) = (step s o).1.events ++ events (run l (step s o).2) := rfl

theorem inv_run (l : List Op) : ∀ {ops : List Op} {evs : List Event} {s : St}, Inv ops evs s → Inv (ops ++ l) (evs ++ events (run l s)) (run l s).2 := by
  induction l with
  | nil => intro ops evs s h; simpa [events, run] using h
  | cons o l ih =>
    intro ops evs s h
    have := ih (inv_step h o)
    rw [List.append_assoc, List.append_assoc] at this
    exact this

theorem inv_init : Inv [] [] {} :=
  ⟨List.nodup_nil, fun _ => trivial, fun _ _ => rfl, fun k i h => by cases h⟩

theorem inv_all (ops : List Op) : Inv ops (events (run ops {})) (run ops {}).2 := by
  have := inv_run ops inv_init
  rwa [List.nil_append, List.nil_append] at this

/-! ### C43 -/

/-- C43: the events about any server are online and offline in turns, and the identity which goes offline is the one which was online -/
theorem C43_story (ops : List Op) (k : Key) : Story none (About k (events (run ops {}))) := (inv_all ops).story k

theorem full_iff {ops : List Op} {evs : List Event} {s : St} (h : Inv ops evs s) : Full evs ↔ trackLimit ≤ s.track.length := by
  have hon : ∀ k, (status none (About k evs)).isSome = true ↔ k ∈ s.track.map (·.1) := by
    intro k
    cases hk : lookup k s.track with
    | none =>
      rw [h.off k hk]
      exact ⟨fun h => (by cases h), fun h => absurd h (lookup_none.mp hk)⟩
    | some i =>
      rw [(h.on k i hk).1]
      refine ⟨fun _ => ?_, fun _ => rfl⟩
      exact Classical.byContradiction fun h => by rw [lookup_none.mpr h] at hk; cases hk
  constructor
  · rintro ⟨ks, h1, h2, h3⟩
    have hs : ks ⊆ s.track.map (·.1) := fun k hk => (hon k).mp (h3 k hk)
    have := h1.length_le_of_subset hs
    rw [List.length_map] at this
    exact Nat.le_trans h2 this
  · intro hl
    exact ⟨s.track.map (·.1), h.keys, by rw [List.length_map]; exact hl, fun k hk => (hon k).mpr hk⟩

/-- C43: a beacon of a server which is online is no event -/
theorem C43_same (ops : List Op) (now : Int) (m : Msg) (h : status none (About (m.server, m.proto) (events (run ops {}))) = some (m.guid, m.version)) :
    (step (run ops {}).2 (.beacon now m)).1.events = [] := by
  rw [show ((m.server, m.proto) : Key) = m.key from rfl] at *
  have hi := inv_all ops
  generalize events (run ops {}) = evs at h hi
  generalize (run ops {}).2 = s at hi
  show (Pvxs.Beacon.onBeacon now m s).1 = []
  rcases onBeacon_cases now m s with ⟨h1, h2, h3⟩ | ⟨h1, h2, h3, h4⟩ | ⟨cur, h1, h2, h3, h4⟩ | ⟨cur, h1, h2, h3, h4⟩
  · rw [h3]
  · rw [hi.off _ h1] at h; cases h
  · rw [(hi.on _ _ h1).1] at h
    exact absurd (Option.some.inj h) h2
  · exact h3

/-- C43: if its identity or version changed, the old is offline and the new is online -/
theorem C43_change (ops : List Op) (now : Int) (m : Msg) (g : List Byte) (v : Byte) (h : status none (About (m.server, m.proto) (events (run ops {}))) = some (g, v))
    (hd : (g, v) ≠ (m.guid, m.version)) : (step (run ops {}).2 (.beacon now m)).1.events =
      [{ online := false, version := v, peer := some m.src, key := (m.server, m.proto), guid := g, time := now },
       { online := true, version := m.version, peer := some m.src, key := (m.server, m.proto), guid := m.guid, time := now }] := by
  rw [show ((m.server, m.proto) : Key) = m.key from rfl] at *
  have hi := inv_all ops
  generalize events (run ops {}) = evs at h hi
  generalize (run ops {}).2 = s at hi
  show (Pvxs.Beacon.onBeacon now m s).1 = _
  rcases onBeacon_cases now m s with ⟨h1, h2, h3⟩ | ⟨h1, h2, h3, h4⟩ | ⟨cur, h1, h2, h3, h4⟩ | ⟨cur, h1, h2, h3, h4⟩
  · rw [hi.off _ h1] at h; cases h
  · rw [hi.off _ h1] at h; cases h
  · rw [(hi.on _ _ h1).1] at h
    cases h
    exact h3
  · rw [(hi.on _ _ h1).1, h2] at h
    exact absurd (Option.some.inj h).symm hd

/-- C43: a server which is not online is so with its first beacon -/
theorem C43_new (ops : List Op) (now : Int) (m : Msg) (h : status none (About (m.server, m.proto) (events (run ops {}))) = none) (hf : ¬Full (events (run ops {}))) :
    (step (run ops {}).2 (.beacon now m)).1.events =
      [{ online := true, version := m.version, peer := some m.src, key := (m.server, m.proto), guid := m.guid, time := now }] := by
  rw [show ((m.server, m.proto) : Key) = m.key from rfl] at *
  have hi := inv_all ops
  generalize events (run ops {}) = evs at h hi hf
  generalize (run ops {}).2 = s at hi
  show (Pvxs.Beacon.onBeacon now m s).1 = _
  rcases onBeacon_cases now m s with ⟨h1, h2, h3⟩ | ⟨h1, h2, h3, h4⟩ | ⟨cur, h1, h2, h3, h4⟩ | ⟨cur, h1, h2, h3, h4⟩
  · exact absurd ((full_iff hi).mpr h2) hf
  · exact h3
  · rw [(hi.on _ _ h1).1] at h; cases h
  · rw [(hi.on _ _ h1).1] at h; cases h

/-- except if there are too many -/
theorem C43_full (ops : List Op) (now : Int) (m : Msg) (h : status none (About (m.server, m.proto) (events (run ops {}))) = none) (hf : Full (events (run ops {}))) :
    (step (run ops {}).2 (.beacon now m)).1.events = [] ∧ (step (run ops {}).2 (.beacon now m)).2 = (run ops {}).2 := by
  rw [show ((m.server, m.proto) : Key) = m.key from rfl] at *
  have hi := inv_all ops
  generalize events (run ops {}) = evs at h hi hf
  generalize (run ops {}).2 = s at hi
  show (Pvxs.Beacon.onBeacon now m s).1 = _ ∧ (Pvxs.Beacon.onBeacon now m s).2.2 = _
  rcases onBeacon_cases now m s with ⟨h1, h2, h3⟩ | ⟨h1, h2, h3, h4⟩ | ⟨cur, h1, h2, h3, h4⟩ | ⟨cur, h1, h2, h3, h4⟩
  · rw [h3]; exact ⟨rfl, rfl⟩
  · have := (full_iff hi).mp hf
    omega
  · rw [(hi.on _ _ h1).1] at h; cases h
  · rw [(hi.on _ _ h1).1] at h; cases h

theorem lost_iff (now : Int) (i : Info) : lost now i = true ↔ Silent now i.time := by
  unfold lost Silent cleanInterval second
  simp only [Bool.or_eq_true, decide_eq_true_eq]
  omega

/-- C43: a sweep reports a server which is online if and only if no beacon of it came for longer than 360 seconds (or its last one is from the future);
then it is not online any more -/
theorem C43_clean (ops : List Op) (now : Int) (k : Key) (g : List Byte) (v : Byte) (h : status none (About k (events (run ops {}))) = some (g, v)) :
    ∃ t, lastHeard k ops = some t ∧
      (Silent now t → About k (step (run ops {}).2 (.clean now)).1.events = [{ online := false, version := v, peer := none, key := k, guid := g, time := now }]) ∧
      (¬Silent now t → About k (step (run ops {}).2 (.clean now)).1.events = []) := by
  have hi := inv_all ops
  generalize events (run ops {}) = evs at h hi
  generalize (run ops {}).2 = s at hi
  show ∃ t, _ ∧ (_ → About k (clean now s).1 = _) ∧ (_ → About k (clean now s).1 = _)
  rw [clean_about now s hi.keys]
  cases hk : lookup k s.track with
  | none => rw [hi.off k hk] at h; cases h
  | some i =>
    obtain ⟨h1, h2⟩ := hi.on k i hk
    rw [h1] at h
    cases h
    refine ⟨i.time, h2, fun hl => ?_, fun hl => ?_⟩
    · dsimp only
      rw [if_pos ((lost_iff now i).mpr hl)]
    · dsimp only
      rw [if_neg fun h => hl ((lost_iff now i).mp h)]

/-- a server which is not online is not reported -/
theorem C43_clean_off (ops : List Op) (now : Int) (k : Key) (h : status none (About k (events (run ops {}))) = none) :
    About k (step (run ops {}).2 (.clean now)).1.events = [] := by
  have hi := inv_all ops
  generalize events (run ops {}) = evs at h hi
  generalize (run ops {}).2 = s at hi
  show About k (clean now s).1 = _
  rw [clean_about now s hi.keys]
  cases hk : lookup k s.track with
  | none => rfl
  | some i => rw [(hi.on k i hk).1] at h; cases h

/-! ### listeners -/

theorem heard_tell (n : Nat) (s : St) (hn : s.listeners.Nodup) (h : n ∈ s.listeners) (l : List Event) :
    (tell s l).filterMap (fun x => if x.1 = n then some x.2 else none) = l := by
  have one : ∀ (ls : List Nat) (e : Event), ls.Nodup → (ls.map fun m => (m, e)).filterMap (fun x => if x.1 = n then some x.2 else none) = if n ∈ ls then [e] else [] := by
    intro ls e hd
    induction ls with
    | nil => rfl
    | cons a ls ih =>
      rw [List.nodup_cons] at hd
      rw [List.map_cons, List.filterMap_cons]
      by_cases ha : a = n
      · subst ha
        simp only [if_true, List.mem_cons, true_or]
        rw [ih hd.2, if_neg hd.1]
      · have : n ∈ a :: ls ↔ n ∈ ls := by
          rw [List.mem_cons]
          exact ⟨fun h => h.resolve_left fun e => ha e.symm, Or.inr⟩
        simp only [ha, if_false, this]
        exact ih hd.2
  unfold tell
  induction l with
  | nil => rfl
  | cons e l ih => rw [List.flatMap_cons, List.filterMap_append, one _ _ hn, if_pos h, ih]; rfl

theorem heard_none (n : Nat) (s : St) (h : n ∉ s.listeners) (l : List Event) :
    (tell s l).filterMap (fun x => if x.1 = n then some x.2 else none) = [] := by
  rw [List.filterMap_eq_nil_iff]
  intro x hx
  unfold tell at hx
  obtain ⟨e, _, hx⟩ := List.mem_flatMap.mp hx
  obtain ⟨m, hm, rfl⟩ := List.mem_map.mp hx
  exact if_neg fun e => h (by have : m = n := e; rw [← this]; exact hm)

theorem heardBy_cons (n : Nat) (o : Op) (l : List Op) (s : St) :
    heardBy n (run (o :: l) s) = (step s o).1.heard.filterMap (fun x => if x.1 = n then some x.2 else none) ++ heardBy n (run l (step s o).2) := by
  unfold heardBy
  rw [run]
  dsimp only
  rw [List.flatMap_cons, List.filterMap_append]

theorem step_listeners (s : St) (o : Op) : (∀ m, o ≠ .listen m) → (∀ m, o ≠ .unlisten m) → (step s o).2.listeners = s.listeners := by
  intro h1 h2
  cases o with
  | beacon now m =>
    show (Pvxs.Beacon.onBeacon now m s).2.2.listeners = _
    unfold Pvxs.Beacon.onBeacon
    split
    · split
      · rfl
      · exact poke_listeners ..
    · dsimp only
      split
      · exact poke_listeners ..
      · rfl
  | clean now => rfl
  | hurryUp now => exact poke_listeners ..
  | tick => rfl
  | listen m => exact absurd rfl (h1 m)
  | unlisten m => exact absurd rfl (h2 m)

theorem step_nodup (s : St) (o : Op) (h : s.listeners.Nodup) : (step s o).2.listeners.Nodup := by
  by_cases h1 : ∀ m, o ≠ .listen m
  · by_cases h2 : ∀ m, o ≠ .unlisten m
    · rw [step_listeners s o h1 h2]; exact h
    · cases o with
      | unlisten m => exact h.filter _
      | _ => exact absurd (fun m h => by cases h) h2
  · cases o with
    | listen m =>
      show (if m ∈ s.listeners then s.listeners else s.listeners ++ [m]).Nodup
      split
      · exact h
      · rename_i hm
        rw [List.nodup_append]
        refine ⟨h, by simp, ?_⟩
        intro a ha b hb
        rw [List.mem_singleton] at hb
        rintro rfl
        exact hm (hb ▸ ha)
    | _ => exact absurd (fun m h => by cases h) h1

theorem step_heard (s : St) (o : Op) : (step s o).1.heard = tell s (step s o).1.events := by
  cases o <;> first | rfl | (show [] = tell s []; rfl)

theorem run_nodup (l : List Op) (s : St) (h : s.listeners.Nodup) : (run l s).2.listeners.Nodup := by
  induction l generalizing s with
  | nil => exact h
  | cons o l ih => exact ih _ (step_nodup s o h)

theorem heard_run (n : Nat) (l : List Op) (hl : .unlisten n ∉ l) : ∀ (s : St), s.listeners.Nodup → n ∈ s.listeners → heardBy n (run l s) = events (run l s) := by
  induction l with
  | nil => intro s _ _; rfl
  | cons o l ih =>
    intro s hd hn
    have ho : o ≠ .unlisten n := fun e => hl (by rw [e]; exact List.mem_cons_self ..)
    have hn' : n ∈ (step s o).2.listeners := by
      by_cases h1 : ∀ m, o ≠ .listen m
      · by_cases h2 : ∀ m, o ≠ .unlisten m
        · rw [step_listeners s o h1 h2]; exact hn
        · cases o with
          | unlisten m =>
            show n ∈ s.listeners.filter (· ≠ m)
            rw [List.mem_filter]
            exact ⟨hn, by simp; rintro rfl; exact ho rfl⟩
          | _ => exact absurd (fun m h => by cases h) h2
      · cases o with
        | listen m =>
          show n ∈ if m ∈ s.listeners then s.listeners else s.listeners ++ [m]
          split
          · exact hn
          · exact List.mem_append_left _ hn
        | _ => exact absurd (fun m h => by cases h) h1
    rw [heardBy_cons, events_cons, step_heard, heard_tell n s hd hn, ih (fun h => hl (List.mem_cons_of_mem _ h)) _ (step_nodup s o hd) hn']

/-- C43: who listens is told all events since -/
theorem C43_heard (pre l : List Op) (n : Nat) (hl : .unlisten n ∉ l) :
    heardBy n (run l (run (pre ++ [.listen n]) {}).2) = events (run l (run (pre ++ [.listen n]) {}).2) := by
  refine heard_run n l hl _ (run_nodup _ _ List.nodup_nil) ?_
  have : ∀ (s : St), n ∈ (run (pre ++ [.listen n]) s).2.listeners := by
    induction pre with
    | nil =>
      intro s
      show n ∈ if n ∈ s.listeners then s.listeners else s.listeners ++ [n]
      split
      · assumption
      · simp
    | cons o pre ih => intro s; exact ih _
  exact this _

theorem run_append (a b : List Op) (s : St) : (run (a ++ b) s).2 = (run b (run a s).2).2 ∧ events (run (a ++ b) s) = events (run a s) ++ events (run b (run a s).2) := by
  induction a generalizing s with
  | nil => exact ⟨rfl, rfl⟩
  | cons o a ih =>
    refine ⟨(ih _).1, ?_⟩
    rw [List.cons_append, events_cons, events_cons, (ih _).2, List.append_assoc]
    rfl

/-- C43: for who listens, too, these are online and offline in turns; a server which was online before is told to be offline first -/
theorem C43_heard_story (pre l : List Op) (n : Nat) (hl : .unlisten n ∉ l) (k : Key) :
    Story (status none (About k (events (run pre {})))) (About k (heardBy n (run l (run (pre ++ [.listen n]) {}).2))) := by
  rw [C43_heard pre l n hl]
  have h := C43_story (pre ++ [.listen n] ++ l) k
  rw [(run_append _ _ _).2, about_append, story_append] at h
  have h2 := h.2
  rw [(run_append pre [.listen n] {}).2] at h2
  have e : events (run [.listen n] (run pre {}).2) = [] := rfl
  rw [e, List.append_nil] at h2
  exact h2

/-! ### where this is not so -/

/-- a server at 10.0.0.1:5075 -/
def exampleMsg : Msg := { src := ⟨.v4 10 0 0 1, 5076⟩, server := ⟨.v4 10 0 0 1, 5075⟩, proto := [0x74, 0x63, 0x70], guid := [1, 2, 3], version := 2 }

/-- who starts to listen is not told which servers are online; not even if they reply to the search which it sends -/
theorem C43_late : ∃ pre, status none (About exampleMsg.key (events (run pre {}))) = some (exampleMsg.guid, exampleMsg.version) ∧
    heardBy 0 (run [.beacon 20 exampleMsg] (run (pre ++ [.listen 0]) {}).2) = [] ∧
    (heardBy 0 (run [.beacon 20 exampleMsg, .clean (400 * 1000000000)] (run (pre ++ [.listen 0]) {}).2)).map (·.online) = [false] :=
  ⟨[.beacon 10 exampleMsg], by decide, by decide, by decide⟩

/-! ### C66: hurryUp -/

theorem poke_cases (now : Int) (s : St) :
    ((poke now s).1 = false ∧ (poke now s).2 = s ∧ (s.nPoked ≠ 0 ∨ now - s.lastPoke < holdoff)) ∨
    ((poke now s).1 = true ∧ (poke now s).2 = { s with lastPoke := now, nPoked := 30 } ∧ s.nPoked = 0 ∧ holdoff ≤ now - s.lastPoke) := by
  unfold poke
  split
  · exact Or.inl ⟨rfl, rfl, Or.inl ‹_›⟩
  · split
    · exact Or.inl ⟨rfl, rfl, Or.inr ‹_›⟩
    · exact Or.inr ⟨rfl, rfl, by omega, by omega⟩

/-- how these two change -/
theorem step_poke (s : St) (o : Op) :
    ((step s o).1.atOnce = true ∧ ∃ now, pokeTime o = some now ∧ s.nPoked = 0 ∧ holdoff ≤ now - s.lastPoke ∧ (step s o).2.nPoked = 30 ∧ (step s o).2.lastPoke = now) ∨
    ((step s o).1.atOnce = false ∧ (step s o).2.nPoked = (if isTick o then s.nPoked - 1 else s.nPoked) ∧ (step s o).2.lastPoke = s.lastPoke) := by
  cases o with
  | beacon now m =>
    show ((Pvxs.Beacon.onBeacon now m s).2.1 = true ∧ ∃ now', some now = some now' ∧ s.nPoked = 0 ∧ holdoff ≤ now' - s.lastPoke ∧
        (Pvxs.Beacon.onBeacon now m s).2.2.nPoked = 30 ∧ (Pvxs.Beacon.onBeacon now m s).2.2.lastPoke = now') ∨
      ((Pvxs.Beacon.onBeacon now m s).2.1 = false ∧ (Pvxs.Beacon.onBeacon now m s).2.2.nPoked = s.nPoked ∧ (Pvxs.Beacon.onBeacon now m s).2.2.lastPoke = s.lastPoke)
    have key : ∀ s' : St, s'.nPoked = s.nPoked → s'.lastPoke = s.lastPoke →
        ((poke now s').1 = true ∧ ∃ now', some now = some now' ∧ s.nPoked = 0 ∧ holdoff ≤ now' - s.lastPoke ∧ (poke now s').2.nPoked = 30 ∧ (poke now s').2.lastPoke = now') ∨
        ((poke now s').1 = false ∧ (poke now s').2.nPoked = s.nPoked ∧ (poke now s').2.lastPoke = s.lastPoke) := by
      intro s' h1 h2
      rcases poke_cases now s' with ⟨a, b, c⟩ | ⟨a, b, c, d⟩
      · right; rw [b]; exact ⟨a, h1, h2⟩
      · left; rw [b]; exact ⟨a, now, rfl, by omega, by omega, rfl, rfl⟩
    unfold Pvxs.Beacon.onBeacon
    split
    · split
      · exact Or.inr ⟨rfl, rfl, rfl⟩
      · exact key _ rfl rfl
    · dsimp only
      split
      · exact key _ rfl rfl
      · exact Or.inr ⟨rfl, rfl, rfl⟩
  | clean now => exact Or.inr ⟨rfl, rfl, rfl⟩
  | hurryUp now =>
    rcases poke_cases now s with ⟨a, b, c⟩ | ⟨a, b, c, d⟩
    · right
      refine ⟨a, ?_, ?_⟩
      · show (poke now s).2.nPoked = s.nPoked; rw [b]
      · show (poke now s).2.lastPoke = s.lastPoke; rw [b]
    · left
      refine ⟨a, now, rfl, c, d, ?_, ?_⟩
      · show (poke now s).2.nPoked = 30; rw [b]
      · show (poke now s).2.lastPoke = now; rw [b]
  | tick => exact Or.inr ⟨rfl, rfl, rfl⟩
  | listen n => exact Or.inr ⟨rfl, rfl, rfl⟩
  | unlisten n => exact Or.inr ⟨rfl, rfl, rfl⟩

theorem quiet_run (l : List Op) : ∀ (s : St), Quiet (run l s) → (run l s).2.nPoked = s.nPoked - l.countP isTick ∧ (run l s).2.lastPoke = s.lastPoke := by
  induction l with
  | nil => intro s _; exact ⟨by simp [run], rfl⟩
  | cons o l ih =>
    intro s h
    have h1 : (step s o).1.atOnce = false := h _ (List.mem_cons_self ..)
    have h2 := ih (step s o).2 fun e he => h e (List.mem_cons_of_mem _ he)
    rcases step_poke s o with ⟨a, _⟩ | ⟨_, b, c⟩
    · rw [h1] at a; cases a
    · show (run l (step s o).2).2.nPoked = _ ∧ (run l (step s o).2).2.lastPoke = _
      rw [h2.1, h2.2, b, c]
      refine ⟨?_, rfl⟩
      cases ht : isTick o with
      | true => rw [List.countP_cons_of_pos ht]; simp; omega
      | false => rw [List.countP_cons_of_neg (by rw [ht]; decide)]; simp

/-- C66: hurryUp(), or a server which comes online, starts a round of quick searching only if thirty seconds or more passed since this was last started, and
that round is over -/
theorem C66_limit (a b : List Op) (o₁ o₂ : Op) (h₁ : (step (run a {}).2 o₁).1.atOnce = true) (hb : Quiet (run b (step (run a {}).2 o₁).2))
    (h₂ : (step (run b (step (run a {}).2 o₁).2).2 o₂).1.atOnce = true) :
    ∃ t₁ t₂, pokeTime o₁ = some t₁ ∧ pokeTime o₂ = some t₂ ∧ 30 * 1000000000 ≤ t₂ - t₁ ∧ 30 ≤ b.countP isTick := by
  rcases step_poke (run a {}).2 o₁ with ⟨_, t₁, ht₁, _, _, hn, hl⟩ | ⟨h, _⟩
  · obtain ⟨q1, q2⟩ := quiet_run b _ hb
    rcases step_poke (run b (step (run a {}).2 o₁).2).2 o₂ with ⟨_, t₂, ht₂, hn2, hh, _, _⟩ | ⟨h, _⟩
    · refine ⟨t₁, t₂, ht₁, ht₂, ?_, ?_⟩
      · rw [q2, hl] at hh; exact hh
      · omega
    · rw [h] at h₂; cases h₂
  · rw [h] at h₁; cases h₁

/-- C66: otherwise hurryUp() has no effect -/
theorem C66_none (s : St) (now : Int) (h : (step s (.hurryUp now)).1.atOnce = false) : (step s (.hurryUp now)).2 = s ∧ (step s (.hurryUp now)).1.events = [] := by
  rcases poke_cases now s with ⟨_, b, _⟩ | ⟨a, _⟩
  · exact ⟨b, rfl⟩
  · have : (step s (.hurryUp now)).1.atOnce = (poke now s).1 := rfl
    rw [this, a] at h; cases h

/-- C66: thirty seconds and thirty ticks after it was last started, it is accepted -/
theorem C66_accepts (a b : List Op) (o₁ : Op) (t₁ now : Int) (h₁ : (step (run a {}).2 o₁).1.atOnce = true) (ht : pokeTime o₁ = some t₁)
    (hb : Quiet (run b (step (run a {}).2 o₁).2)) (hn : 30 ≤ b.countP isTick) (hd : 30 * 1000000000 ≤ now - t₁) :
    (step (run b (step (run a {}).2 o₁).2).2 (.hurryUp now)).1.atOnce = true := by
  rcases step_poke (run a {}).2 o₁ with ⟨_, t, ht', _, _, hn', hl⟩ | ⟨h, _⟩
  · rw [ht] at ht'; cases ht'
    obtain ⟨q1, q2⟩ := quiet_run b _ hb
    show (poke now _).1 = true
    rcases poke_cases now (run b (step (run a {}).2 o₁).2).2 with ⟨_, _, c⟩ | ⟨a, _⟩
    · unfold holdoff second at c
      rw [q1, q2, hl, hn'] at c
      omega
    · exact a
  · rw [h] at h₁; cases h₁

/-- the first time it is accepted, with a clock which is thirty seconds or more after the epoch -/
theorem C66_first (a : List Op) (now : Int) (ha : Quiet (run a {})) (hd : 30 * 1000000000 ≤ now) : (step (run a {}).2 (.hurryUp now)).1.atOnce = true := by
  obtain ⟨q1, q2⟩ := quiet_run a _ ha
  show (poke now _).1 = true
  rcases poke_cases now (run a {}).2 with ⟨_, _, c⟩ | ⟨a, _⟩
  · unfold holdoff second at c
    have e1 : ({} : St).nPoked = 0 := rfl
    have e2 : ({} : St).lastPoke = 0 := rfl
    rw [q1, q2, e1, e2] at c
    omega
  · exact a

/-- C66: after it is started exactly the next thirty ticks are quick -/
theorem C66_fast (a b : List Op) (o₁ : Op) (h₁ : (step (run a {}).2 o₁).1.atOnce = true) (hb : Quiet (run b (step (run a {}).2 o₁).2)) :
    (step (run b (step (run a {}).2 o₁).2).2 .tick).1.fast = true ↔ b.countP isTick < 30 := by
  rcases step_poke (run a {}).2 o₁ with ⟨_, t, _, _, _, hn', hl⟩ | ⟨h, _⟩
  · obtain ⟨q1, q2⟩ := quiet_run b _ hb
    show decide ((run b (step (run a {}).2 o₁).2).2.nPoked ≠ 0) = true ↔ _
    rw [decide_eq_true_eq, q1, hn']
    omega
  · rw [h] at h₁; cases h₁

/-- when the clock is set back, hurryUp() has no effect until it shows thirty seconds after the last time again -/
theorem C66_clock (a b : List Op) (o₁ : Op) (t₁ now : Int) (h₁ : (step (run a {}).2 o₁).1.atOnce = true) (ht : pokeTime o₁ = some t₁)
    (hb : Quiet (run b (step (run a {}).2 o₁).2)) (hd : now < t₁) : (step (run b (step (run a {}).2 o₁).2).2 (.hurryUp now)).1.atOnce = false := by
  rcases step_poke (run a {}).2 o₁ with ⟨_, t, ht', _, _, hn', hl⟩ | ⟨h, _⟩
  · rw [ht] at ht'; cases ht'
    obtain ⟨q1, q2⟩ := quiet_run b _ hb
    show (poke now _).1 = false
    rcases poke_cases now (run b (step (run a {}).2 o₁).2).2 with ⟨a, _, _⟩ | ⟨_, _, _, c⟩
    · exact a
    · unfold holdoff second at c
      rw [q2, hl] at c
      omega
  · rw [h] at h₁; cases h₁

/-! ### examples -/

/-- the same server, restarted -/
def exampleNew : Msg := { exampleMsg with guid := [4, 5, 6] }

/-- seen, restarted, silent, seen again -/
def exampleOps : List Op := [.listen 7, .beacon 100000000000 exampleMsg, .beacon 115000000000 exampleMsg, .beacon 130000000000 exampleNew, .clean 300000000000,
  .clean 500000000000, .clean 510000000000, .beacon 600000000000 exampleNew]

example : (events (run exampleOps {})).map (fun e => (e.online, e.guid)) =
    [(true, [1, 2, 3]), (false, [1, 2, 3]), (true, [4, 5, 6]), (false, [4, 5, 6]), (true, [4, 5, 6])] := by decide
example : heardBy 7 (run exampleOps {}) = events (run exampleOps {}) := by decide
example : status none (About exampleMsg.key (events (run exampleOps {}))) = some ([4, 5, 6], 2) := by decide
example : (About exampleMsg.key (events (run exampleOps {}))).length = 5 := by decide
example : ¬Full (events (run exampleOps {})) := by
  intro h
  have := (full_iff (inv_all exampleOps)).mp h
  have e : (run exampleOps {}).2.track.length = 1 := by decide
  rw [e] at this
  exact absurd this (by decide)
/-- the first beacon started quick searching, the second did not, the third came thirty seconds later but the round was not over -/
example : (run exampleOps {}).1.map (·.atOnce) = [false, true, false, false, false, false, false, false] := by decide
example : (step (run (List.replicate 30 .tick) (run exampleOps {}).2).2 (.hurryUp 600000000000)).1.atOnce = true := by decide
example : ((run (List.replicate 31 .tick) (run exampleOps {}).2).1.map (·.fast)) = List.replicate 30 true ++ [false] := by decide

end Pvxs.Props.Bcn
