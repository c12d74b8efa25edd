import Verif.Spec.Sock
/-
C126: each socket is closed once, and multicast datagrams have the options of their destination.
-/
namespace Pvxs.Props.Sock
open Pvxs.Sock Pvxs.Spec.Sock

structure Inv (s : St) : Prop where
  lt : ∀ h f, s.sock h = some f → f < s.next ∧ s.alive h = true
  inj : ∀ h h' f, s.sock h = some f → s.sock h' = some f → h = h'
  cnt : ∀ f, f < s.next → (s.log.count (.closed f) = 1 ∧ ∀ h, s.sock h ≠ some f) ∨ (s.log.count (.closed f) = 0 ∧ ∃ h, s.sock h = some f)
  none : ∀ f, s.next ≤ f → s.log.count (.closed f) = 0
  opened : ∀ f, .opened f ∈ s.log ↔ f < s.next

theorem inv_init : Inv {} := by
  refine ⟨?_, ?_, ?_, ?_, ?_⟩
  · intro h f q; cases q
  · intro h h' f q; cases q
  · intro f q; exact absurd q (Nat.not_lt_zero _)
  · intro f _; rfl
  · intro f; constructor
    · intro q; cases q
    · intro q; exact absurd q (Nat.not_lt_zero _)

theorem dead_none {s : St} (h : Inv s) {x : Nat} (hx : ¬ s.alive x = true) : s.sock x = none := by
  cases hs : s.sock x with
  | none => rfl
  | some f => exact absurd (h.lt x f hs).2 hx

theorem set_eq {α : Type} (f : Nat → α) (h : Nat) (v : α) : set f h v h = v := by unfold Pvxs.Sock.set; rw [if_pos rfl]
theorem set_ne {α : Type} (f : Nat → α) (h : Nat) (v : α) {x : Nat} (hx : x ≠ h) : set f h v x = f x := by unfold Pvxs.Sock.set; rw [if_neg hx]

/-- after a move from `o` to `h` a socket other than the one `h` had is held by somebody as before -/
theorem moved {s : St} {h o : Nat} (hne : h ≠ o) {x f : Nat} (hx : set (set s.sock h (s.sock o)) o none x = some f) :
    (x = h ∧ s.sock o = some f) ∨ (x ≠ h ∧ x ≠ o ∧ s.sock x = some f) := by
  by_cases h1 : x = o
  · rw [h1, set_eq] at hx; cases hx
  · rw [set_ne _ _ _ h1] at hx
    by_cases h2 : x = h
    · rw [h2, set_eq] at hx; exact Or.inl ⟨h2, hx⟩
    · rw [set_ne _ _ _ h2] at hx; exact Or.inr ⟨h2, h1, hx⟩

theorem moved_holder {s : St} {h o : Nat} (hne : h ≠ o) {x f : Nat} (hx : s.sock x = some f) (hxh : x ≠ h) :
    ∃ y, set (set s.sock h (s.sock o)) o none y = some f := by
  by_cases h1 : x = o
  · refine ⟨h, ?_⟩
    rw [set_ne _ _ _ hne, set_eq, ← h1]
    exact hx
  · refine ⟨x, ?_⟩
    rw [set_ne _ _ _ h1, set_ne _ _ _ hxh]
    exact hx

theorem moved_inj {s : St} (hi : Inv s) {h o : Nat} (hne : h ≠ o) {x y f : Nat} (hx : set (set s.sock h (s.sock o)) o none x = some f)
    (hy : set (set s.sock h (s.sock o)) o none y = some f) : x = y := by
  rcases moved hne hx with ⟨a, b⟩ | ⟨a, b, c⟩
  · rcases moved hne hy with ⟨a', b'⟩ | ⟨a', b', c'⟩
    · rw [a, a']
    · exact absurd (hi.inj _ _ f c' b) b'
  · rcases moved hne hy with ⟨a', b'⟩ | ⟨a', b', c'⟩
    · exact absurd (hi.inj _ _ f c b') b
    · exact hi.inj _ _ f c c'

theorem count_shut (log : List Ev) (o : Option Nat) (f : Nat) : (shut log o).count (.closed f) = log.count (.closed f) + (if o = some f then 1 else 0) := by
  cases o with
  | none => rfl
  | some g =>
    show (log ++ [Ev.closed g]).count (.closed f) = _
    rw [List.count_append]
    by_cases e : g = f
    · subst e; simp
    · have e' : ¬ (some g = some f) := fun q => e (Option.some.inj q)
      rw [if_neg e']
      simp [e]

theorem opened_shut (log : List Ev) (o : Option Nat) (f : Nat) : .opened f ∈ shut log o ↔ .opened f ∈ log := by
  cases o with
  | none => exact Iff.rfl
  | some g =>
    show Ev.opened f ∈ log ++ [Ev.closed g] ↔ _
    simp

theorem inv_step {s : St} (hi : Inv s) (op : Op) : Inv (step s op) := by
  cases op with
  | make h a b c =>
    show Inv (make s h a b c)
    unfold make
    split
    · exact hi
    · rename_i hd
      have hn := dead_none hi hd
      split
      · exact hi
      · split
        · refine ⟨?_, hi.inj, ?_, ?_, ?_⟩
          · intro x f q
            have := hi.lt x f q
            exact ⟨Nat.lt_succ_of_lt this.1, this.2⟩
          · intro f q
            have q' : f < s.next + 1 := q
            show (List.count (Ev.closed f) (s.log ++ [.opened s.next, .closed s.next]) = 1 ∧ _) ∨ (List.count (Ev.closed f) (s.log ++ [.opened s.next, .closed s.next]) = 0 ∧ _)
            by_cases e : f = s.next
            · left
              subst e
              refine ⟨?_, fun x q2 => by have := (hi.lt x _ q2).1; omega⟩
              rw [List.count_append, hi.none _ (Nat.le_refl _)]
              simp
            · have hc : List.count (Ev.closed f) (s.log ++ [.opened s.next, .closed s.next]) = s.log.count (.closed f) := by
                rw [List.count_append]
                have e' : ¬ s.next = f := fun q => e q.symm
                simp [e']
              rw [hc]
              exact hi.cnt f (by omega)
          · intro f q
            have q' : s.next + 1 ≤ f := q
            show List.count (Ev.closed f) (s.log ++ [.opened s.next, .closed s.next]) = 0
            rw [List.count_append, hi.none f (by omega)]
            have e' : ¬ s.next = f := by omega
            simp [e']
          · intro f
            have := hi.opened f
            show Ev.opened f ∈ s.log ++ [.opened s.next, .closed s.next] ↔ f < s.next + 1
            simp [this]
            omega
        · refine ⟨?_, ?_, ?_, ?_, ?_⟩
          · intro x f q
            have q' : set s.sock h (some s.next) x = some f := q
            by_cases e : x = h
            · rw [e, set_eq] at q'
              injection q' with q'
              rw [e, ← q']
              exact ⟨Nat.lt_succ_self _, set_eq _ _ _⟩
            · rw [set_ne _ _ _ e] at q'
              have := hi.lt x f q'
              exact ⟨Nat.lt_succ_of_lt this.1, (set_ne _ _ _ e).trans this.2⟩
          · intro x y f q1 q2
            have q1' : set s.sock h (some s.next) x = some f := q1
            have q2' : set s.sock h (some s.next) y = some f := q2
            by_cases e1 : x = h
            · by_cases e2 : y = h
              · rw [e1, e2]
              · rw [e1, set_eq] at q1'
                rw [set_ne _ _ _ e2] at q2'
                injection q1' with q1'
                have := (hi.lt y f q2').1
                omega
            · rw [set_ne _ _ _ e1] at q1'
              by_cases e2 : y = h
              · rw [e2, set_eq] at q2'
                injection q2' with q2'
                have := (hi.lt x f q1').1
                omega
              · rw [set_ne _ _ _ e2] at q2'
                exact hi.inj x y f q1' q2'
          · intro f q
            have q' : f < s.next + 1 := q
            have hc : List.count (Ev.closed f) (s.log ++ [.opened s.next]) = s.log.count (.closed f) := by
              rw [List.count_append]
              simp
            show (List.count (Ev.closed f) (s.log ++ [.opened s.next]) = 1 ∧ ∀ x, set s.sock h (some s.next) x ≠ some f) ∨
              (List.count (Ev.closed f) (s.log ++ [.opened s.next]) = 0 ∧ ∃ x, set s.sock h (some s.next) x = some f)
            rw [hc]
            by_cases e : f = s.next
            · right
              exact ⟨hi.none f (by omega), h, by rw [set_eq, e]⟩
            · rcases hi.cnt f (by omega) with ⟨p1, p2⟩ | ⟨p1, x, p2⟩
              · left
                refine ⟨p1, ?_⟩
                intro x q2
                by_cases e1 : x = h
                · rw [e1, set_eq] at q2
                  injection q2 with q2
                  exact e q2.symm
                · rw [set_ne _ _ _ e1] at q2
                  exact p2 x q2
              · right
                refine ⟨p1, x, ?_⟩
                rw [set_ne _ _ _ (fun e1 => by rw [e1, hn] at p2; cases p2)]
                exact p2
          · intro f q
            have q' : s.next + 1 ≤ f := q
            show List.count (Ev.closed f) (s.log ++ [.opened s.next]) = 0
            rw [List.count_append, hi.none f (by omega)]
            simp
          · intro f
            have := hi.opened f
            show Ev.opened f ∈ s.log ++ [.opened s.next] ↔ f < s.next + 1
            simp [this]
            omega
  | empty h =>
    show Inv (empty s h)
    unfold empty
    split
    · exact hi
    · rename_i hd
      have hn := dead_none hi hd
      have e : set s.sock h none = s.sock := by
        funext x
        by_cases e : x = h
        · rw [e, set_eq, hn]
        · rw [set_ne _ _ _ e]
      rw [e]
      refine ⟨?_, hi.inj, hi.cnt, hi.none, hi.opened⟩
      intro x f q
      have := hi.lt x f q
      refine ⟨this.1, ?_⟩
      show set s.alive h true x = true
      by_cases e : x = h
      · rw [e, set_eq]
      · rw [set_ne _ _ _ e]; exact this.2
  | moveNew h o =>
    show Inv (moveNew s h o)
    unfold moveNew
    split
    · exact hi
    · rename_i hc
      have hd : ¬ s.alive h = true := fun q => hc (Or.inl q)
      have ho : s.alive o = true := by
        cases q : s.alive o with
        | true => rfl
        | false => exact absurd (Or.inr q) hc
      have hne : h ≠ o := fun q => by rw [q] at hd; exact hd ho
      have hn := dead_none hi hd
      refine ⟨?_, ?_, ?_, hi.none, hi.opened⟩
      · intro x f q
        rcases moved hne q with ⟨a, b⟩ | ⟨a, _, c⟩
        · refine ⟨(hi.lt o f b).1, ?_⟩
          show set s.alive h true x = true
          rw [a, set_eq]
        · refine ⟨(hi.lt x f c).1, ?_⟩
          show set s.alive h true x = true
          rw [set_ne _ _ _ a]
          exact (hi.lt x f c).2
      · intro x y f q1 q2
        exact moved_inj hi hne q1 q2
      · intro f q
        rcases hi.cnt f q with ⟨p1, p2⟩ | ⟨p1, x, p2⟩
        · left
          refine ⟨p1, ?_⟩
          intro x q2
          rcases moved hne q2 with ⟨_, b⟩ | ⟨_, _, c⟩
          · exact p2 o b
          · exact p2 x c
        · right
          exact ⟨p1, moved_holder hne p2 (fun e => by rw [e, hn] at p2; cases p2)⟩
  | moveTo h o =>
    show Inv (moveTo s h o)
    unfold moveTo
    split
    · exact hi
    · rename_i hc
      split
      · exact hi
      · rename_i hne
        have hh : s.alive h = true := by
          cases q : s.alive h with
          | true => rfl
          | false => exact absurd (Or.inl q) hc
        refine ⟨?_, ?_, ?_, ?_, ?_⟩
        · intro x f q
          rcases moved hne q with ⟨a, b⟩ | ⟨_, _, c⟩
          · exact ⟨(hi.lt o f b).1, by show s.alive x = true; rw [a]; exact hh⟩
          · exact hi.lt x f c
        · intro x y f q1 q2
          exact moved_inj hi hne q1 q2
        · intro f q
          have q' : f < s.next := q
          show ((shut s.log (s.sock h)).count (.closed f) = 1 ∧ ∀ x, set (set s.sock h (s.sock o)) o none x ≠ some f) ∨
            ((shut s.log (s.sock h)).count (.closed f) = 0 ∧ ∃ x, set (set s.sock h (s.sock o)) o none x = some f)
          rw [count_shut]
          rcases hi.cnt f q' with ⟨p1, p2⟩ | ⟨p1, x, p2⟩
          · left
            rw [if_neg (p2 h), p1]
            refine ⟨rfl, ?_⟩
            intro x q2
            rcases moved hne q2 with ⟨_, b⟩ | ⟨_, _, c⟩
            · exact p2 o b
            · exact p2 x c
          · by_cases e : s.sock h = some f
            · left
              rw [if_pos e, p1]
              refine ⟨rfl, ?_⟩
              intro x q2
              rcases moved hne q2 with ⟨_, b⟩ | ⟨a, _, c⟩
              · exact hne (hi.inj h o f e b)
              · exact a (hi.inj x h f c e)
            · right
              rw [if_neg e, p1]
              exact ⟨rfl, moved_holder hne p2 (fun e1 => by rw [e1] at p2; exact e p2)⟩
        · intro f q
          have q' : s.next ≤ f := q
          show (shut s.log (s.sock h)).count (.closed f) = 0
          rw [count_shut, hi.none f q', if_neg (fun e => by have := (hi.lt h f e).1; omega)]
        · intro f
          exact (opened_shut _ _ _).trans (hi.opened f)
  | destroy h =>
    show Inv (destroy s h)
    unfold destroy
    split
    · have back : ∀ x f, set s.sock h none x = some f → x ≠ h ∧ s.sock x = some f := by
        intro x f q
        by_cases e : x = h
        · rw [e, set_eq] at q; cases q
        · rw [set_ne _ _ _ e] at q; exact ⟨e, q⟩
      refine ⟨?_, ?_, ?_, ?_, ?_⟩
      · intro x f q
        obtain ⟨e, q⟩ := back x f q
        refine ⟨(hi.lt x f q).1, ?_⟩
        show set s.alive h false x = true
        rw [set_ne _ _ _ e]
        exact (hi.lt x f q).2
      · intro x y f q1 q2
        exact hi.inj x y f (back x f q1).2 (back y f q2).2
      · intro f q
        have q' : f < s.next := q
        show ((shut s.log (s.sock h)).count (.closed f) = 1 ∧ ∀ x, set s.sock h none x ≠ some f) ∨
          ((shut s.log (s.sock h)).count (.closed f) = 0 ∧ ∃ x, set s.sock h none x = some f)
        rw [count_shut]
        rcases hi.cnt f q' with ⟨p1, p2⟩ | ⟨p1, x, p2⟩
        · left
          rw [if_neg (p2 h), p1]
          exact ⟨rfl, fun x q2 => p2 x (back x f q2).2⟩
        · by_cases e : s.sock h = some f
          · left
            rw [if_pos e, p1]
            refine ⟨rfl, ?_⟩
            intro y q2
            obtain ⟨a, b⟩ := back y f q2
            exact a (hi.inj y h f b e)
          · right
            rw [if_neg e, p1]
            refine ⟨rfl, x, ?_⟩
            rw [set_ne _ _ _ (fun e1 => by rw [e1] at p2; exact e p2)]
            exact p2
      · intro f q
        have q' : s.next ≤ f := q
        show (shut s.log (s.sock h)).count (.closed f) = 0
        rw [count_shut, hi.none f q', if_neg (fun e => by have := (hi.lt h f e).1; omega)]
      · intro f
        exact (opened_shut _ _ _).trans (hi.opened f)
    · exact hi

theorem inv_run (ops : List Op) : ∀ {s : St}, Inv s → Inv (run s ops) := by
  induction ops with
  | nil => intro s h; exact h
  | cons op ops ih => intro s h; exact ih (inv_step h op)

theorem inv (ops : List Op) : Inv (run {} ops) := inv_run ops inv_init

/-- C126: no socket is closed twice, whatever is made, moved, assigned and destroyed. -/
theorem C126_once (ops : List Op) : Once (run {} ops).log := by
  intro f
  by_cases h : f < (run {} ops).next
  · rcases (inv ops).cnt f h with ⟨p, _⟩ | ⟨p, _⟩ <;> omega
  · rw [(inv ops).none f (by omega)]; exact Nat.zero_le _

/-- C126: a socket which an object has is open, and no other object has it. -/
theorem C126_held (ops : List Op) (h f : Nat) (hs : (run {} ops).sock h = some f) :
    .opened f ∈ (run {} ops).log ∧ .closed f ∉ (run {} ops).log ∧ ∀ h', (run {} ops).sock h' = some f → h' = h := by
  have hi := inv ops
  have hl := (hi.lt h f hs).1
  refine ⟨(hi.opened f).mpr hl, ?_, fun h' q => hi.inj h' h f q hs⟩
  rcases hi.cnt f hl with ⟨_, p⟩ | ⟨p, _⟩
  · exact absurd hs (p h)
  · intro q
    have := List.count_pos_iff.mpr q
    omega

/-- C126: an open socket belongs to an object; so when all objects are gone, all sockets are closed, also those of constructors which threw. -/
theorem C126_closed (ops : List Op) (hg : ∀ h, (run {} ops).alive h = false) : AllClosed (run {} ops).log := by
  intro f hf
  have hi := inv ops
  rcases hi.cnt f ((hi.opened f).mp hf) with ⟨p, _⟩ | ⟨_, h, q⟩
  · exact List.count_pos_iff.mp (by omega)
  · have := (hi.lt h f q).2
    rw [hg h] at this
    cases this

/-- C126: assigning an object to itself does nothing. -/
theorem C126_self (s : St) (h : Nat) : step s (.moveTo h h) = s := by
  show moveTo s h h = s
  unfold moveTo
  split
  · rfl
  · rw [if_pos rfl]

/-- C126: a move takes the socket along, and leaves none behind. -/
theorem C126_move (ops : List Op) (h o f : Nat) (ho : (run {} ops).sock o = some f) (hh : (run {} ops).alive h = true) (hne : h ≠ o) :
    (run {} (ops ++ [.moveTo h o])).sock h = some f ∧ (run {} (ops ++ [.moveTo h o])).sock o = none ∧
      ∀ g, (run {} ops).sock h = some g → .closed g ∈ (run {} (ops ++ [.moveTo h o])).log := by
  have e : run {} (ops ++ [.moveTo h o]) = moveTo (run {} ops) h o := by simp [run, step]
  have hi := inv ops
  have ha := (hi.lt o f ho).2
  rw [e]
  unfold moveTo
  rw [if_neg (by rw [hh, ha]; simp), if_neg hne]
  refine ⟨?_, set_eq _ _ _, ?_⟩
  · show set (set _ h _) o none h = some f
    rw [set_ne _ _ _ hne, set_eq]
    exact ho
  · intro g hg
    show Ev.closed g ∈ shut _ _
    rw [hg]
    show Ev.closed g ∈ _ ++ [Ev.closed g]
    simp

/-- made, a constructor which threw, moved, assigned over another, to itself, destroyed -/
def sockRun : List Op := [.make 0 true true true, .make 1 true true true, .make 2 true true false, .make 3 false true true, .moveNew 4 0, .moveTo 1 4, .moveTo 1 1,
  .empty 5, .moveTo 5 1, .destroy 0, .destroy 1, .destroy 4, .destroy 5]

example : (run {} sockRun).log = [.opened 0, .opened 1, .opened 2, .closed 2, .closed 1, .closed 0] := by decide

example : (run {} (sockRun.take 6)).sock 1 = some 0 ∧ (run {} (sockRun.take 5)).sock 4 = some 0 ∧ (run {} (sockRun.take 5)).alive 1 = true := by decide

example : ∀ h, (run {} sockRun).alive h = false := by
  intro h
  simp [run, sockRun, step, make, moveNew, moveTo, empty, destroy, Pvxs.Sock.set]
  intro a b c d
  exact ⟨a, b, c, d⟩

/-! ### Multicast -/

theorem sendOne_eq (num : Nat → Nat) (t : Tx) (d : Dest) (okT okI : Bool) (ht : t.thrown = false) :
    ∃ o o4 o6, prep num d.v6 (if d.v6 then t.o6 else t.o4) d okT okI = some o ∧ sendOne num t d okT okI = { o4 := o4, o6 := o6, sent := t.sent ++ [⟨d, o⟩], thrown := false } := by
  have hp : ∀ o, ∃ o', prep num d.v6 o d okT okI = some o' := by
    intro o
    unfold prep
    rw [if_neg (fun q => q rfl)]
    split <;> exact ⟨_, rfl⟩
  unfold sendOne
  rw [ht]
  cases hv : d.v6 with
  | true =>
    rw [hv] at hp
    obtain ⟨o, ho⟩ := hp t.o6
    refine ⟨o, t.o4, o, ho, ?_⟩
    simp only [ho, if_true, Bool.false_eq_true, if_false]
  | false =>
    rw [hv] at hp
    obtain ⟨o, ho⟩ := hp t.o4
    refine ⟨o, o, t.o6, ho, ?_⟩
    simp only [ho, Bool.false_eq_true, if_false]

/-- C126: all datagrams are sent, to the destinations in their order, whatever setsockopt() does. -/
theorem C126_sent (num : Nat → Nat) (l : List (Dest × Bool × Bool)) (t : Tx) (ht : t.thrown = false) :
    (sendAll num t l).thrown = false ∧ (sendAll num t l).sent.map (·.dest) = t.sent.map (·.dest) ++ l.map (·.1) := by
  induction l generalizing t with
  | nil => exact ⟨ht, by simp [sendAll]⟩
  | cons x l ih =>
    obtain ⟨o, o4, o6, _, e⟩ := sendOne_eq num t x.1 x.2.1 x.2.2 ht
    have hh : sendAll num t (x :: l) = sendAll num (sendOne num t x.1 x.2.1 x.2.2) l := rfl
    rw [hh, e]
    obtain ⟨a, b⟩ := ih _ (rfl : ({ o4 := o4, o6 := o6, sent := t.sent ++ [⟨x.1, o⟩], thrown := false } : Tx).thrown = false)
    exact ⟨a, by rw [b]; simp⟩

/-- C126, part: as long as setsockopt() succeeds, each multicast datagram has the time to live and the interface of its destination, whatever was sent before. -/
theorem C126_mcast_partial (num : Nat → Nat) (l : List (Dest × Bool × Bool)) (hok : ∀ x ∈ l, x.2 = (true, true)) : ∀ x ∈ (sendAll num {} l).sent, Right num x := by
  have key : ∀ (l : List (Dest × Bool × Bool)) (t : Tx), t.thrown = false → (∀ x ∈ l, x.2 = (true, true)) → (∀ x ∈ t.sent, Right num x) →
      ∀ x ∈ (sendAll num t l).sent, Right num x := by
    intro l
    induction l with
    | nil => intro t _ _ h; exact h
    | cons y l ih =>
      intro t ht hok h
      obtain ⟨o, o4, o6, ho, e⟩ := sendOne_eq num t y.1 y.2.1 y.2.2 ht
      have hh : sendAll num t (y :: l) = sendAll num (sendOne num t y.1 y.2.1 y.2.2) l := rfl
      rw [hh, e]
      refine ih _ rfl (fun x hx => hok x (List.mem_cons_of_mem _ hx)) ?_
      intro x hx
      have hx' : x ∈ t.sent ++ [⟨y.1, o⟩] := hx
      rw [List.mem_append, List.mem_singleton] at hx'
      rcases hx' with hx' | rfl
      · exact h x hx'
      · intro hm
        have hm' : y.1.mcast = true := hm
        rw [hok y (by simp)] at ho
        unfold prep at ho
        rw [if_neg (fun q => q rfl), hm'] at ho
        simp at ho
        rw [← ho]
        exact ⟨rfl, rfl⟩
  exact key l {} rfl hok (by intro x hx; cases hx)

/-- two groups, with different interfaces: the second call of setsockopt() for the time to live fails -/
def badSend : List (Dest × Bool × Bool) := [(⟨false, 1, true, 32, some 7⟩, true, true), (⟨false, 2, true, 1, none⟩, false, true)]

/-- the code: when setsockopt() fails, which only is logged, the datagram is sent with the time to live of another destination -/
theorem C126_mcast_false : ¬ ∀ x ∈ (sendAll (fun i => i) {} badSend).sent, Right (fun i => i) x := by
  intro h
  have := h ⟨⟨false, 2, true, 1, none⟩, ⟨32, 0⟩⟩ (by decide) rfl
  have h1 := this.1
  cases h1

/-- unicast between two groups -/
example : (sendAll (fun i => i) {} [(⟨false, 1, true, 32, some 7⟩, true, true), (⟨false, 9, false, -1, none⟩, true, true), (⟨true, 2, true, 1, none⟩, true, true)]).sent.map (·.opt) =
    [⟨32, 7⟩, ⟨32, 7⟩, ⟨1, 0⟩] := by decide

end Pvxs.Props.Sock
