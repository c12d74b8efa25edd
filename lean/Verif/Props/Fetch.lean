import Verif.Lemmas.Fetch
/-
C111: pvxget, pvxinfo and pvxlist print each answer once, end as soon as all are in, and tell by the exit status whether all were got.
-/
namespace Pvxs.Props.Fetch
open Pvxs Pvxs.Fetch Pvxs.Spec.Fetch Pvxs.Lemmas.Fetch

theorem answer_of_prefix {a b : List Ev} {i : Nat} {x : Bool} (h : answer a i = some x) : answer (a ++ b) i = some x := by
  rw [answer_stays b (by rw [h]; rfl), h]

theorem live_of_phase {m : Main} (h : ∀ k, m.phase ≠ .exited k) : exited m = false := by
  cases hx : exited m with
  | false => rfl
  | true => obtain ⟨k, hk⟩ := exited_iff.1 hx; exact absurd hk (h k)

theorem get_count (o : Option Bool) : counts .get o = true ↔ o = some true := by simp [counts]

/-- whoever is counted has answered: all do if and only if nothing remains -/
theorem zero_iff (p : Prog) (n : Nat) (es : List Ev) (hx : exited (run p n es) = false) :
    (run p n es).remaining = 0 ↔ ∀ i, i < n → counts p (answer es i) = true := by
  constructor
  · intro h i hi; exact (all_of_zero (inv_run p n es) h i hi).2
  · intro h
    refine zero_of_all (inv_run p n es) fun i hi => ⟨(inv_run p n es).live hx i hi ?_, h i hi⟩
    have := h i hi
    cases ha : answer es i with
    | some x => rfl
    | none => rw [ha] at this; cases p <;> simp [counts] at this

/-! ### what is printed -/

/-- **C111, what is printed**: for each name at most one thing, the value if and only if the server's answer was a value.  `pvxinfo` prints errors, of
which `pvxget` prints only the name. -/
theorem C111_printed (p : Prog) (n : Nat) (es : List Ev) :
    ((run p n es).out.map (·.1)).Nodup ∧
    (∀ i w, (i, w) ∈ (run p n es).out → i < n ∧
      ((w = .value ∧ answer es i = some true) ∨ (w = .error ∧ p = .info ∧ answer es i = some false) ∨
       (w = .name ∧ p = .get ∧ answer es i = some false))) := by
  have H := inv_run p n es
  refine ⟨H.outnd, ?_⟩
  intro i w h
  obtain ⟨h1, h2⟩ := (H.out i w).1 h
  refine ⟨H.lt i h1, ?_⟩
  cases ha : answer es i with
  | none => rw [ha] at h2; cases h2
  | some x =>
    rw [ha] at h2
    cases p <;> cases x <;> simp [shown] at h2 <;> simp [← h2]

/-- **C111, nothing is left out**: as long as the program runs, each value which has come is printed. -/
theorem C111_all_printed (p : Prog) (n : Nat) (es : List Ev) (hr : ∀ k, ¬ endedWith p n es k) (i : Nat) (hi : i < n)
    (h : answer es i = some true) : (i, .value) ∈ (run p n es).out := by
  have H := inv_run p n es
  refine (H.out i .value).2 ⟨H.live (live_of_phase hr) i hi (by rw [h]; rfl), ?_⟩
  rw [h]; cases p <;> rfl

/-! ### pvxget -/

/-- **C111, status 0 of pvxget**: then each value was got and printed. -/
theorem C111_get_zero (n : Nat) (es : List Ev) (h : endedWith .get n es 0) :
    AllGood n es ∧ ∀ i, i < n → (i, .value) ∈ (run .get n es).out := by
  obtain ⟨a, b, s, h1, h2, h3⟩ := (past .get n es).ended 0 h
  have hx : exited (run .get n a) = false := live_of_phase (by rw [h2]; intro k h; cases h)
  have hz : (run .get n a).remaining = 0 := by
    unfold Main.status at h3
    cases s with
    | false => simp at h3
    | true =>
      by_cases hz : (run .get n a).remaining = 0
      · exact hz
      · simp [hz] at h3
  have hall := (zero_iff .get n a hx).1 hz
  have good : AllGood n es := by
    intro i hi
    rw [h1]
    exact answer_of_prefix ((get_count _).1 (hall i hi))
  refine ⟨good, ?_⟩
  intro i hi
  have H := inv_run .get n es
  have Ha := inv_run .get n a
  have ham : i ∈ (run .get n a).answered := (all_of_zero Ha hz i hi).1
  have hmono : ∀ (b a : List Ev), i ∈ (run .get n a).answered → i ∈ (run .get n (a ++ b)).answered := by
    intro b
    induction b with
    | nil => intro a h; simpa using h
    | cons e b ih =>
      intro a h
      have : i ∈ (run .get n (a ++ [e])).answered := by
        rw [run_append]
        cases e with
        | result j ok =>
          simp only [step]
          split
          · exact h
          · rw [(callback_eq .get _ j ok).1]; exact List.mem_append_left _ h
        | interrupt => simp only [step]; split <;> exact h
        | timeout => simp only [step]; split <;> exact h
        | wake => simp only [step]; split <;> exact h
        | finish => simp only [step]; split <;> exact h
      have := ih (a ++ [e]) this
      simpa using this
  refine (H.out i .value).2 ⟨by rw [h1]; exact hmono _ a ham, ?_⟩
  rw [good i hi]; rfl

/-- **C111, status 1 of pvxget**: it gave up, when a value was still missing (if any was asked for) and nobody had interrupted it. -/
theorem C111_get_one (n : Nat) (es : List Ev) (h : endedWith .get n es 1) :
    ∃ a b, es = a ++ .timeout :: b ∧ (0 < n → ¬ AllGood n a) ∧ Ev.interrupt ∉ a := by
  obtain ⟨a, b, s, h1, h2, h3⟩ := (past .get n es).ended 1 h
  cases s with
  | true =>
    exfalso
    unfold Main.status at h3
    by_cases hz : (run .get n a).remaining = 0 <;> simp [hz] at h3
  | false =>
    obtain ⟨a', b', h4, h5, h6⟩ := (past .get n a).gaveUp h2
    have hx : exited (run .get n a') = false := live_of_phase (by rw [h5]; intro k h; cases h)
    refine ⟨a', b' ++ .finish :: b, by rw [h1, h4]; simp, ?_, ?_⟩
    · intro h0 hg
      have := (inv_run .get n a').full ((zero_iff .get n a' hx).2 fun i hi => (get_count _).2 (hg i hi)) h0
      rw [h6] at this; cases this
    · intro hi
      have := (inv_run .get n a').wk hx hi
      rw [h6] at this; cases this

/-- **C111, status 2 of pvxget**: it was interrupted, and did not get all until it returned. -/
theorem C111_get_two (n : Nat) (es : List Ev) (h : endedWith .get n es 2) :
    ∃ a b, es = a ++ .finish :: b ∧ Ev.interrupt ∈ a ∧ ¬ AllGood n a := by
  obtain ⟨a, b, s, h1, h2, h3⟩ := (past .get n es).ended 2 h
  have hx : exited (run .get n a) = false := live_of_phase (by rw [h2]; intro k h; cases h)
  cases s with
  | false => unfold Main.status at h3; simp at h3
  | true =>
    have hz : (run .get n a).remaining ≠ 0 := by
      intro hz
      unfold Main.status at h3
      simp [hz] at h3
    have H := inv_run .get n a
    refine ⟨a, b, h1, ?_, ?_⟩
    · rcases H.done (H.signalled h2) with h | h
      · exact h
      · exact absurd (Int.le_antisymm h.1 (count_le H)) hz
    · intro hg
      exact hz ((zero_iff .get n a hx).2 fun i hi => (get_count _).2 (hg i hi))

/-- **C111, no other status**. -/
theorem C111_statuses (p : Prog) (n : Nat) (es : List Ev) (k : Nat) (h : endedWith p n es k) : k = 0 ∨ k = 1 ∨ k = 2 := by
  obtain ⟨a, b, s, h1, h2, h3⟩ := (past p n es).ended k h
  rw [h3]
  unfold Main.status
  split
  · simp
  · split
    · simp
    · split <;> simp

theorem returns_of_zero (p : Prog) (n : Nat) (es : List Ev) (h0 : 0 < n) (hw : (run p n es).phase = .waiting)
    (hz : (run p n es).remaining = 0) : endedWith p n (es ++ [.wake, .finish]) 0 ∧ run p n (es ++ [.timeout]) = run p n es := by
  have hd := (inv_run p n es).full hz h0
  constructor
  · have e : es ++ [.wake, .finish] = (es ++ [.wake]) ++ [.finish] := by simp
    unfold endedWith
    rw [e, run_append, run_append]
    simp only [step, hw, hd, and_self, if_true]
    simp [Main.status, hz]
  · rw [run_append]
    simp only [step, hd]
    rw [if_neg (by simp)]

/-- **C111, as soon as all are in pvxget returns, with status 0**: it can no more time out. -/
theorem C111_get_returns (n : Nat) (es : List Ev) (h0 : 0 < n) (hw : (run .get n es).phase = .waiting) (h : AllGood n es) :
    endedWith .get n (es ++ [.wake, .finish]) 0 ∧ run .get n (es ++ [.timeout]) = run .get n es :=
  returns_of_zero .get n es h0 hw
    ((zero_iff .get n es (live_of_phase (by rw [hw]; intro k h; cases h))).2 fun i hi => (get_count _).2 (h i hi))

theorem stuck {p : Prog} {n : Nat} {es : List Ev} (hi : Ev.interrupt ∉ es) (ht : Ev.timeout ∉ es)
    (hr : ∀ a b, es = a ++ b → exited (run p n a) = false → 0 < n → (run p n a).remaining ≠ 0) : ¬ canReturn p n es := by
  have key : ∀ a b, es = a ++ b → exited (run p n a) = false → (run p n a).done = false := by
    intro a b e hx
    cases hd : (run p n a).done with
    | false => rfl
    | true =>
      rcases (inv_run p n a).done hd with h | h
      · exact absurd (by rw [e]; exact List.mem_append_left _ h) hi
      · exact absurd (Int.le_antisymm h.1 (count_le (inv_run p n a))) (hr a b e hx h.2)
  have nowake : ∀ a b, es = a ++ b → (run p n a).phase ≠ .waited true := by
    intro a b e h
    have hd := (inv_run p n a).signalled h
    rw [key a b e (live_of_phase (by rw [h]; intro k h; cases h))] at hd
    cases hd
  have notime : ∀ a b, es = a ++ b → (run p n a).phase ≠ .waited false := by
    intro a b e h
    obtain ⟨a', b', h1, _⟩ := (past p n a).gaveUp h
    exact ht (by rw [e, h1]; simp)
  have wait : (run p n es).phase = .waiting := by
    cases hp : (run p n es).phase with
    | waiting => rfl
    | waited s => cases s; exact absurd hp (notime es [] (by simp)); exact absurd hp (nowake es [] (by simp))
    | exited k =>
      obtain ⟨a, b, s, h1, h2, _⟩ := (past p n es).ended k hp
      cases s; exact absurd h2 (notime a _ h1); exact absurd h2 (nowake a _ h1)
  rintro (h | h)
  · exact h wait
  · rw [key es [] (by simp) (live_of_phase (by rw [wait]; intro k h; cases h))] at h
    cases h

/-- **C111 fails, an error is not an answer for pvxget**: if a server reports an error for one name, and all other answers are there, the program still
waits until it times out or is interrupted. -/
theorem C111_get_error (n : Nat) (es : List Ev) (i : Nat) (hi : i < n) (he : answer es i = some false) :
    (¬ endedWith .get n es 0) ∧ (Ev.interrupt ∉ es → Ev.timeout ∉ es → ¬ canReturn .get n es) := by
  constructor
  · intro h
    have := (C111_get_zero n es h).1 i hi
    rw [he] at this; cases this
  · intro h1 h2
    refine stuck h1 h2 ?_
    intro a b e hx _ hz
    have h3 := (get_count _).1 ((zero_iff .get n a hx).1 hz i hi)
    have h4 := answer_of_prefix (b := b) h3
    rw [← e, he] at h4; cases h4

/-- **C111 fails, without a name**: none of the three programs returns, unless it times out or is interrupted (`pvxlist` then is asked to list servers,
which is another matter). -/
theorem C111_none (p : Prog) (es : List Ev) (h1 : Ev.interrupt ∉ es) (h2 : Ev.timeout ∉ es) : ¬ canReturn p 0 es :=
  stuck h1 h2 (fun _ _ _ _ h => absurd h (by omega))

/-! ### pvxinfo, and pvxlist with addresses -/

theorem info_count {p : Prog} (hp : p ≠ .get) (o : Option Bool) : counts p o = o.isSome := by
  cases p <;> first | rfl | exact absurd rfl hp

/-- **C111, status 0 of pvxinfo**: then there was an answer for each name. -/
theorem C111_info_zero (n : Nat) (es : List Ev) (h : endedWith .info n es 0) : AllAnswered n es := by
  obtain ⟨a, b, s, h1, h2, h3⟩ := (past .info n es).ended 0 h
  have hx : exited (run .info n a) = false := live_of_phase (by rw [h2]; intro k h; cases h)
  have hz : (run .info n a).remaining = 0 := by
    unfold Main.status at h3
    cases s with
    | false => simp at h3
    | true =>
      by_cases hz : (run .info n a).remaining = 0
      · exact hz
      · simp [hz] at h3
  intro i hi
  have h4 := (zero_iff .info n a hx).1 hz i hi
  rw [info_count (by simp)] at h4
  rw [h1, answer_stays _ h4]; exact h4

/-- **C111, pvxinfo and pvxlist return as soon as all answers are in**, with status 0: they can no more time out. -/
theorem C111_info_returns (p : Prog) (hp : p ≠ .get) (n : Nat) (es : List Ev) (h0 : 0 < n) (hw : (run p n es).phase = .waiting)
    (h : AllAnswered n es) : endedWith p n (es ++ [.wake, .finish]) 0 ∧ run p n (es ++ [.timeout]) = run p n es :=
  returns_of_zero p n es h0 hw
    ((zero_iff p n es (live_of_phase (by rw [hw]; intro k h; cases h))).2 fun i hi => by rw [info_count hp]; exact h i hi)

/-- what is left if values and errors are taken for the same -/
def deaf : Ev → Ev
  | .result i _ => .result i true
  | e => e

/-- **C111 fails, the exit status of pvxinfo does not tell errors**: with an error in place of a value it is the same. -/
theorem C111_info_deaf (n : Nat) (es : List Ev) : (run .info n es).phase = (run .info n (es.map deaf)).phase := by
  have key : (run .info n es).phase = (run .info n (es.map deaf)).phase ∧ (run .info n es).done = (run .info n (es.map deaf)).done ∧
      (run .info n es).remaining = (run .info n (es.map deaf)).remaining ∧ (run .info n es).answered = (run .info n (es.map deaf)).answered := by
    refine rev_ind (P := fun es => (run .info n es).phase = (run .info n (es.map deaf)).phase ∧
      (run .info n es).done = (run .info n (es.map deaf)).done ∧ (run .info n es).remaining = (run .info n (es.map deaf)).remaining ∧
      (run .info n es).answered = (run .info n (es.map deaf)).answered) ⟨rfl, rfl, rfl, rfl⟩ ?_ es
    rintro l e ⟨h1, h2, h3, h4⟩
    rw [List.map_append, List.map_singleton, run_append, run_append]
    generalize run .info n l = m at *
    generalize run .info n (l.map deaf) = m' at *
    have hx : exited m = exited m' := by simp only [exited, h1]
    cases e with
    | result i ok =>
      simp only [deaf, step, hx, h4]
      split
      · exact ⟨h1, h2, h3, h4⟩
      · obtain ⟨a1, a2, _, a4, a5⟩ := callback_eq .info { m with answered := m'.answered ++ [i] } i ok
        obtain ⟨b1, b2, _, b4, b5⟩ := callback_eq .info { m' with answered := m'.answered ++ [i] } i true
        rw [a1, a2, a4, a5, b1, b2, b4, b5]
        simp only [counts, h1, h2, h3]
        refine ⟨?_, ?_, ?_, ?_⟩ <;> first | trivial | rfl
    | interrupt => simp only [deaf, step, hx]; split <;> simp [h1, h2, h3, h4]
    | timeout => simp only [deaf, step, h1, h2]; split <;> simp [h1, h2, h3, h4]
    | wake => simp only [deaf, step, h1, h2]; split <;> simp [h1, h2, h3, h4]
    | finish =>
      simp only [deaf, step, h1]
      split <;> simp [h1, h2, h3, h4, Main.status]
  exact key.1

/-- ... so that it may be 0 although no name exists -/
theorem C111_info_errors (n : Nat) (h0 : 0 < n) : ∃ es, endedWith .info n es 0 ∧ ∀ i, i < n → answer es i = some false := by
  have hans : ∀ i, i < n → answer ((List.range n).map fun i => Ev.result i false) i = some false := by
    intro i hi
    have : ∀ l : List Nat, i ∈ l → answer (l.map fun i => Ev.result i false) i = some false := by
      intro l
      induction l with
      | nil => intro h; cases h
      | cons j l ih =>
        intro h
        rw [List.map_cons, ← List.singleton_append, answer_append, answer_result]
        by_cases e : j = i
        · simp [e]
        · rw [if_neg e]
          rcases List.mem_cons.1 h with h | h
          · exact absurd h.symm e
          · simp [ih h]
    exact this _ (List.mem_range.2 hi)
  have hw : ∀ l : List Nat, (run .info n (l.map fun i => Ev.result i false)).phase = .waiting := by
    intro l
    have : ∀ (l : List Nat) (m : Main), m.phase = .waiting → ((l.map fun i => Ev.result i false).foldl (step .info n) m).phase = .waiting := by
      intro l
      induction l with
      | nil => intro m h; exact h
      | cons i l ih => intro m h; exact ih _ (by rw [phase_result]; exact h)
    exact this l _ rfl
  refine ⟨((List.range n).map fun i => Ev.result i false) ++ [.wake, .finish],
    (C111_info_returns .info (by simp) n _ h0 (hw _) (fun i hi => by rw [hans i hi]; rfl)).1, ?_⟩
  intro i hi
  exact answer_of_prefix (hans i hi)

/-- **C111 fails, the exit status of pvxlist tells nothing**: it is 0 whatever happened, and so if nobody answered. -/
theorem C111_list_zero (n : Nat) (es : List Ev) (k : Nat) (h : endedWith .list n es k) : k = 0 := by
  obtain ⟨a, b, s, h1, h2, h3⟩ := (past .list n es).ended k h
  rw [h3]
  simp [Main.status]

/-! ### pvxlist without addresses -/

theorem listing_append (h : List Beacon.Event) (e : Beacon.Event) : listing (h ++ [e]) = hear tcp (listing h) e := by
  simp [listing, tcp, List.foldl_append]

theorem beacon_ind {P : List Beacon.Event → Prop} (h0 : P []) (hs : ∀ l e, P l → P (l ++ [e])) (l : List Beacon.Event) : P l := by
  have : ∀ l a, P a → P (a ++ l) := by
    intro l
    induction l with
    | nil => intro a h; simpa using h
    | cons e l ih => intro a h; have := ih (a ++ [e]) (hs a e h); simpa using this
  simpa using this l [] h0

theorem present_append (g : List Wire.Byte) (h : List Beacon.Event) (e : Beacon.Event) :
    Present g (h ++ [e]) ↔ Up g e ∨ (Present g h ∧ ¬ Down g e) := by
  constructor
  · rintro ⟨h1, u, h2, he, hu, hn⟩
    rcases List.eq_nil_or_concat h2 with hh | ⟨h3, x, hh⟩
    · subst hh
      have : h ++ [e] = h1 ++ [u] := he
      obtain ⟨_, h5⟩ := List.append_inj' this rfl
      injection h5 with h5
      exact .inl (h5 ▸ hu)
    · rw [hh] at he hn
      have e2 : h ++ [e] = (h1 ++ u :: h3) ++ [x] := by rw [he]; simp
      obtain ⟨h4, h5⟩ := List.append_inj' e2 rfl
      injection h5 with h5
      refine .inr ⟨⟨h1, u, h3, h4, hu, fun y hy => hn y (by simp [hy])⟩, ?_⟩
      rw [h5]; exact hn x (by simp)
  · rintro (hu | ⟨⟨h1, u, h2, he, hu, hn⟩, hd⟩)
    · exact ⟨h, e, [], rfl, hu, by simp⟩
    · refine ⟨h1, u, h2 ++ [e], by rw [he]; simp, hu, ?_⟩
      intro x hx
      rcases List.mem_append.1 hx with hx | hx
      · exact hn x hx
      · rw [List.mem_singleton.1 hx]; exact hd

theorem known_iff (h : List Beacon.Event) : ∀ g, (g, tcp) ∈ (listing h).known ↔ Present g h := by
  refine beacon_ind (P := fun h => ∀ g, (g, tcp) ∈ (listing h).known ↔ Present g h) ?_ ?_ h
  · intro g
    simp only [listing, List.foldl_nil, List.not_mem_nil, false_iff]
    rintro ⟨h1, u, h2, he, _⟩
    simp at he
  · intro l e ih g
    rw [listing_append, present_append, ← ih g]
    unfold hear Up Down
    by_cases hk : e.key.2 = tcp
    · rw [if_neg (by simpa using hk), hk]
      cases ho : e.online with
      | false =>
        rw [if_pos rfl]
        simp only [List.mem_filter, decide_eq_true_eq, Prod.mk.injEq, and_true, ne_eq]
        constructor
        · rintro ⟨h1, h2⟩; exact .inr ⟨h1, fun h => h2 h.2.2.symm⟩
        · rintro (h | ⟨h1, h2⟩)
          · cases h.1
          · exact ⟨h1, fun h => h2 ⟨trivial, trivial, h.symm⟩⟩
      | true =>
        rw [if_neg (by simp)]
        split
        · rename_i hm
          constructor
          · intro h; exact .inr ⟨h, fun h => by cases h.1⟩
          · rintro (h | h)
            · rw [← h.2.2]; exact hm
            · exact h.1
        · simp only [List.mem_append, List.mem_singleton, Prod.mk.injEq, and_true]
          constructor
          · rintro (h | h)
            · exact .inr ⟨h, fun h => by cases h.1⟩
            · exact .inl ⟨trivial, trivial, h.symm⟩
          · rintro (h | h)
            · exact .inr h.2.2.symm
            · exact .inl h.1
    · rw [if_pos hk]
      constructor
      · intro h; exact .inr ⟨h, fun h => hk h.2.1⟩
      · rintro (h | h)
        · exact absurd h.2.1 hk
        · exact h.1

open Classical in
/-- **C111, which servers are listed**: an endpoint is printed when it appears, unless another endpoint of the same server was seen before, and none of them
went away since. -/
theorem C111_listed (h : List Beacon.Event) (e : Beacon.Event) :
    (listing (h ++ [e])).out = (listing h).out ++ (if Up e.guid e ∧ ¬ Present e.guid h then [e.key.1] else []) := by
  rw [listing_append]
  unfold hear
  by_cases hk : e.key.2 = tcp
  · rw [if_neg (by simpa using hk)]
    cases ho : e.online with
    | false => simp [Up, ho]
    | true =>
      rw [if_neg (by simp), hk]
      split
      · rename_i hm
        have := (known_iff h e.guid).1 hm
        simp [this]
      · rename_i hm
        have hp : ¬ Present e.guid h := fun hp => hm ((known_iff h e.guid).2 hp)
        rw [if_pos ⟨⟨ho, hk, rfl⟩, hp⟩]
  · rw [if_pos hk]
    simp [Up, hk]

/-- **C111, each server is listed**: an endpoint of each server which appeared is printed. -/
theorem C111_listed_all (h : List Beacon.Event) (e : Beacon.Event) (he : e ∈ h) (hu : Up e.guid e) :
    ∃ u ∈ h, Up e.guid u ∧ u.key.1 ∈ (listing h).out := by
  have key : ∀ h : List Beacon.Event, (Present e.guid h ∨ e ∈ h) → ∃ u ∈ h, Up e.guid u ∧ u.key.1 ∈ (listing h).out := by
    intro h
    refine beacon_ind (P := fun h => (Present e.guid h ∨ e ∈ h) → ∃ u ∈ h, Up e.guid u ∧ u.key.1 ∈ (listing h).out) ?_ ?_ h
    · rintro (⟨h1, u, h2, h3, _⟩ | h)
      · simp at h3
      · cases h
    · intro l x ih hx
      have old : (∃ u ∈ l, Up e.guid u ∧ u.key.1 ∈ (listing l).out) → ∃ u ∈ l ++ [x], Up e.guid u ∧ u.key.1 ∈ (listing (l ++ [x])).out := by
        rintro ⟨u, h1, h2, h3⟩
        exact ⟨u, List.mem_append_left _ h1, h2, by rw [C111_listed]; exact List.mem_append_left _ h3⟩
      have new : Up e.guid x → ∃ u ∈ l ++ [x], Up e.guid u ∧ u.key.1 ∈ (listing (l ++ [x])).out := by
        intro h
        by_cases hp : Present e.guid l
        · exact old (ih (.inl hp))
        · refine ⟨x, by simp, h, ?_⟩
          have hg : x.guid = e.guid := h.2.2
          rw [C111_listed, if_pos ⟨by rw [hg]; exact h, by rw [hg]; exact hp⟩]
          simp
      rcases hx with hx | hx
      · rcases (present_append _ _ _).1 hx with h | h
        · exact new h
        · exact old (ih (.inl h.1))
      · rcases List.mem_append.1 hx with h | h
        · exact old (ih (.inr h))
        · exact new (by rw [← List.mem_singleton.1 h]; exact hu)
  exact key h (.inr he)

/-- the events of a history of beacons -/
def told (ops : List Beacon.Op) : List Beacon.Event := (Beacon.run ops {}).1.flatMap (·.events)

/-- the address of an endpoint -/
def epOf (last : Wire.Byte) : Udp.Ep := { addr := .v4 10 0 0 last, port := 5075 }

def beaconOf (last : Wire.Byte) : Beacon.Msg := { src := epOf last, server := epOf last, proto := tcp, guid := [1, 2, 3], version := 0 }

/-- one server with two endpoints, of which only the first is heard of between seconds 0 and 361 -/
def flaky : List Beacon.Op :=
  [.beacon 0 (beaconOf 1), .beacon 0 (beaconOf 2), .beacon (200 * Beacon.second) (beaconOf 1), .clean (361 * Beacon.second),
   .beacon (362 * Beacon.second) (beaconOf 2)]

/-- **C111 fails, a server may be listed twice**: of a server with two endpoints the second goes away and comes back, and is then listed, although the
first was known, and listed, at all times. -/
theorem C111_listed_twice :
    (listing (told flaky)).out = [epOf 1, epOf 2] ∧ (∀ e ∈ told flaky, e.guid = [1, 2, 3]) ∧
    ∀ e ∈ told flaky, e.key.1 = epOf 1 → e.online = true := by decide

/-- one server with two endpoints, of which only the second is heard of between seconds 0 and 361 -/
def moved : List Beacon.Op :=
  [.beacon 0 (beaconOf 1), .beacon 0 (beaconOf 2), .beacon (200 * Beacon.second) (beaconOf 2), .clean (361 * Beacon.second)]

/-- **C111 fails, the endpoint which is left is not listed**: when the endpoint which was listed goes away, the other one, though known, is not printed. -/
theorem C111_listed_gone :
    (listing (told moved)).out = [epOf 1] ∧ (∃ e ∈ told moved, e.online = false ∧ e.key.1 = epOf 1) ∧
    (Beacon.run moved {}).2.track.map (·.1.1) = [epOf 2] := by decide

/-! ### the hypotheses are met -/

/-- two values, and the end -/
example : endedWith .get 2 [.result 1 true, .result 0 true, .wake, .finish] 0 ∧
    (run .get 2 [.result 1 true, .result 0 true, .wake, .finish]).out = [(1, .value), (0, .value)] := by unfold endedWith; decide

example : endedWith .get 2 [.result 1 true, .result 0 false, .timeout, .finish] 1 ∧
    (run .get 2 [.result 1 true, .result 0 false]).out = [(1, .value), (0, .name)] := by unfold endedWith; decide

example : endedWith .get 2 [.result 1 true, .interrupt, .wake, .finish] 2 := by unfold endedWith; decide

/-- interrupted, but the last value came just in time -/
example : endedWith .get 2 [.result 1 true, .interrupt, .wake, .result 0 true, .finish] 0 := by unfold endedWith; decide

example : AllGood 2 [.result 1 true, .result 0 true] ∧ (run .get 2 [.result 1 true, .result 0 true]).phase = .waiting := by
  refine ⟨?_, by decide⟩
  intro i hi
  have : i = 0 ∨ i = 1 := by omega
  rcases this with rfl | rfl <;> decide

example : answer [.result 0 false, .result 1 true] 0 = some false ∧ Ev.interrupt ∉ [Ev.result 0 false, .result 1 true] := by decide

example : endedWith .info 2 [.result 1 true, .result 0 false, .wake, .finish] 0 ∧
    (run .info 2 [.result 1 true, .result 0 false, .wake, .finish]).out = [(1, .value), (0, .error)] := by unfold endedWith; decide

example : endedWith .list 2 [.timeout, .finish] 0 := by unfold endedWith; decide

example : AllAnswered 1 [.result 0 false] ∧ (run .info 1 [.result 0 false]).phase = .waiting := by
  refine ⟨?_, by decide⟩
  intro i hi
  have : i = 0 := by omega
  subst this; decide

example : (told flaky).length = 4 ∧ ∃ e ∈ told flaky, Up e.guid e := by unfold Up; decide

end Pvxs.Props.Fetch
