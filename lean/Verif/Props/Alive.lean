import Verif.Model.Alive
import Verif.Spec.Alive
/-
C109: a connection is kept while both sides are alive, and given up soon after one is not.
-/
namespace Pvxs.Props.Alive
open Pvxs.Alive
open Pvxs.Spec.Alive

/-! ### the period of echo messages -/

theorem period_bounds (t : Nat) : 1 * sec ≤ period t ∧ period t ≤ 15 * sec := by
  unfold period sec
  omega

theorem enforce_min (inf t : Nat) : 2 * sec ≤ enforce inf t := by
  unfold enforce sec
  split
  · omega
  · split <;> omega

/-- whatever is configured, echo messages are sent at least twice as often as the timeout of the same side asks for -/
theorem C109_period (inf t : Nat) : 2 * period (enforce inf t) ≤ enforce inf t := by
  have := enforce_min inf t
  unfold period sec at *
  omega

/-! ### what is on its way -/

/-- each is at most `g` after the one before it, the first after `x`, and `y` after the last -/
def Gaps (g x : Nat) : List Nat → Nat → Prop
  | [], y => y ≤ x + g
  | a :: l, y => a ≤ x + g ∧ Gaps g a l y

/-- the same without an end -/
def Chain (g x : Nat) : List Nat → Prop
  | [] => True
  | a :: l => a ≤ x + g ∧ Chain g a l

def lastOr (x : Nat) : List Nat → Nat
  | [] => x
  | a :: l => lastOr a l

theorem Gaps.mono {g x x' : Nat} {l : List Nat} {y : Nat} (h : Gaps g x l y) (hx : x ≤ x') : Gaps g x' l y := by
  cases l with
  | nil => simp only [Gaps] at *; omega
  | cons a l => simp only [Gaps] at *; exact ⟨by omega, h.2⟩

theorem Gaps.push {g x a y : Nat} {l : List Nat} (h : Gaps g x l y) (ha : a ≤ y) {y' : Nat} (hy : y' ≤ a + g) : Gaps g x (l ++ [a]) y' := by
  induction l generalizing x with
  | nil => simp only [Gaps, List.nil_append] at *; omega
  | cons b l ih => simp only [Gaps, List.cons_append] at *; exact ⟨h.1, ih h.2⟩

theorem Chain.mono {g x x' : Nat} {l : List Nat} (h : Chain g x l) (hx : x ≤ x') : Chain g x' l := by
  cases l with
  | nil => trivial
  | cons a l => simp only [Chain] at *; exact ⟨by omega, h.2⟩

theorem Chain.push {g x a : Nat} {l : List Nat} (h : Chain g x l) (ha : a ≤ lastOr x l + g) : Chain g x (l ++ [a]) := by
  induction l generalizing x with
  | nil => simp only [Chain, List.nil_append, lastOr] at *; exact ⟨ha, trivial⟩
  | cons b l ih => simp only [Chain, List.cons_append, lastOr] at *; exact ⟨h.1, ih h.2 ha⟩

theorem lastOr_push (x a : Nat) (l : List Nat) : lastOr x (l ++ [a]) = a := by
  induction l generalizing x with
  | nil => rfl
  | cons b l ih => simp only [List.cons_append, lastOr]; exact ih b

theorem lastOr_mono {x x' : Nat} (l : List Nat) (h : x ≤ x') : lastOr x l ≤ lastOr x' l := by
  cases l with
  | nil => exact h
  | cons a l => exact Nat.le_refl _

/-- when the echo messages among these were sent -/
def echoes (l : List Msg) : List Nat := (l.filter (·.echo)).map (·.sent)

theorem echoes_push (l : List Msg) (m : Msg) : echoes (l ++ [m]) = if m.echo then echoes l ++ [m.sent] else echoes l := by
  unfold echoes
  cases h : m.echo <;> simp [List.filter_append, h]

theorem echoes_cons (l : List Msg) (m : Msg) : echoes (m :: l) = if m.echo then m.sent :: echoes l else echoes l := by
  unfold echoes
  cases h : m.echo <;> simp [List.filter_cons, h]

theorem echoes_mem {l : List Msg} {t : Nat} (h : t ∈ echoes l) : ∃ m ∈ l, m.sent = t := by
  unfold echoes at h
  obtain ⟨m, hm, e⟩ := List.mem_map.1 h
  exact ⟨m, (List.mem_filter.1 hm).1, e⟩

/-- a connection which is made -/
structure Made (c : Conf) (d : Nat) (s : State) : Prop where
  sentS : ∀ m ∈ s.toServer, m.sent ≤ s.now
  sentC : ∀ m ∈ s.toClient, m.sent ≤ s.now
  rxC : s.rxC ≤ s.now
  rxS : s.rxS ≤ s.now
  server : Gaps (period c.tc + c.late + d) s.rxS (echoes s.toServer) (s.nextEcho + c.late)
  replies : Chain (period c.tc + c.late + d) s.rxC (echoes s.toClient)
  client : Gaps (period c.tc + c.late) (lastOr s.rxC (echoes s.toClient)) (echoes s.toServer) (s.nextEcho + c.late)
  fresh : s.now ≤ s.nextEcho + c.late
  waitS : ∀ m ∈ s.toServer, s.now ≤ m.sent + d
  waitC : ∀ m ∈ s.toClient, s.now ≤ m.sent + d
  limS : s.now ≤ s.rxS + (period c.tc + c.late + 2 * d)
  limC : s.now ≤ s.rxC + (period c.tc + c.late + 2 * d)

inductive Inv (c : Conf) (d : Nat) (s : State) : Prop
  | before (hs : s.srv = .absent) (hp : s.phase ≠ .connected) (hS : s.toServer = []) (hC : s.toClient = []) : Inv c d s
  | accepted (since : Nat) (hs : s.srv = .open_) (hp : s.phase = .connecting since) (hS : s.toServer = []) (hC : echoes s.toClient = [])
      (hc : ∀ m ∈ s.toClient, m.sent ≤ s.now ∧ s.rxS ≤ m.sent) (hr : s.rxS ≤ s.now) (hw : s.now ≤ s.rxS + d) : Inv c d s
  | gone (a : Nat) (hp : s.phase = .closed a) : Inv c d s
  | up (hu : Up s) (h : Made c d s) : Inv c d s

theorem gaps_first {g x y D t : Nat} {l : List Nat} (h : Gaps g x l y) (hl : ∀ a ∈ l, t ≤ a + D) (hy : t ≤ y) : t ≤ x + g + D := by
  cases l with
  | nil => simp only [Gaps] at h; omega
  | cons a l => simp only [Gaps] at h; have := hl a List.mem_cons_self; omega

theorem up_step {c : Conf} {d : Nat} (hts : period c.tc + c.late + 2 * d < c.ts) (htc : period c.tc + c.late + 2 * d < c.tc)
    {s s' : State} {e : Ev} (hu : Up s) (h : Made c d s) (hw : ∀ t, e = .pass t → Waits d t s) (hs : step c s e = some s') : Up s' ∧ Made c d s' := by
  obtain ⟨now, phase, rxC, nextEcho, srv, rxS, toServer, toClient⟩ := s
  obtain ⟨hp, hv⟩ := hu
  simp only at hp hv
  subst hp hv
  obtain ⟨sentS, sentC, hrc, hrs, server, replies, client, fresh, waitS, waitC, limS, limC⟩ := h
  simp only at sentS sentC hrc hrs server replies client fresh waitS waitC limS limC
  cases e with
  | pass t =>
    simp only [step] at hs
    split at hs
    · rename_i hd
      cases hs
      obtain ⟨h1, h2, h3⟩ := hd
      simp only [clientDue, serverDue, Bool.and_eq_true, decide_eq_true_eq] at h1 h2 h3
      obtain ⟨⟨w1, _⟩, w2, _⟩ := hw t rfl
      simp only at w1 w2
      have es : ∀ a ∈ echoes toServer, t ≤ a + d := by
        intro a ha
        obtain ⟨m, hm, e⟩ := echoes_mem ha
        rw [← e]
        exact w1 m hm
      have ec : ∀ a ∈ echoes toClient, t ≤ a + d := by
        intro a ha
        obtain ⟨m, hm, e⟩ := echoes_mem ha
        rw [← e]
        exact w2 m hm
      have b1 := gaps_first server es h2.1
      have b2 : t ≤ rxC + (period c.tc + c.late + 2 * d) := by
        cases hl : echoes toClient with
        | nil =>
          rw [hl] at client
          have := gaps_first client es h2.1
          simp only [lastOr] at this
          omega
        | cons a l =>
          rw [hl] at replies
          have := ec a (by rw [hl]; exact List.mem_cons_self)
          have := replies.1
          omega
      refine ⟨⟨rfl, rfl⟩, ⟨fun m hm => ?_, fun m hm => ?_, ?_, ?_, server, replies, client, h2.1, w1, w2, ?_, b2⟩⟩
      · have := sentS m hm; simp only; omega
      · have := sentC m hm; simp only; omega
      · simp only; omega
      · simp only; omega
      · simp only; omega
    · cases hs
  | tick =>
    simp only [step, tickEcho] at hs
    split at hs
    · rename_i hd
      cases hs
      have hn : (if nextEcho + period c.tc < now then now + period c.tc else nextEcho + period c.tc) ≤ now + period c.tc ∧
          now ≤ (if nextEcho + period c.tc < now then now + period c.tc else nextEcho + period c.tc) := by
        split <;> omega
      have he : echoes (toServer ++ [⟨now, true⟩]) = echoes toServer ++ [now] := by rw [echoes_push]; rfl
      refine ⟨⟨rfl, rfl⟩, ⟨fun m hm => ?_, sentC, hrc, hrs, ?_, replies, ?_, ?_, fun m hm => ?_, waitC, limS, limC⟩⟩
      · rcases List.mem_append.1 hm with hm | hm
        · exact sentS m hm
        · rw [List.mem_singleton.1 hm]; exact Nat.le_refl _
      · simp only [he]; exact server.push fresh (by omega)
      · simp only [he]; exact client.push fresh (by omega)
      · simp only; omega
      · rcases List.mem_append.1 hm with hm | hm
        · exact waitS m hm
        · rw [List.mem_singleton.1 hm]; simp only; omega
    · cases hs
  | accept => simp only [step] at hs; cases hs
  | established => simp only [step, connected] at hs; cases hs
  | clientSends =>
    simp only [step] at hs
    cases hs
    have he : echoes (toServer ++ [⟨now, false⟩]) = echoes toServer := by rw [echoes_push]; rfl
    refine ⟨⟨rfl, rfl⟩, ⟨fun m hm => ?_, sentC, hrc, hrs, by simp only [he]; exact server, replies, by simp only [he]; exact client, fresh,
      fun m hm => ?_, waitC, limS, limC⟩⟩
    · rcases List.mem_append.1 hm with hm | hm
      · exact sentS m hm
      · rw [List.mem_singleton.1 hm]; exact Nat.le_refl _
    · rcases List.mem_append.1 hm with hm | hm
      · exact waitS m hm
      · rw [List.mem_singleton.1 hm]; simp only; omega
  | serverSends =>
    simp only [step] at hs
    cases hs
    have he : echoes (toClient ++ [⟨now, false⟩]) = echoes toClient := by rw [echoes_push]; rfl
    refine ⟨⟨rfl, rfl⟩, ⟨sentS, fun m hm => ?_, hrc, hrs, server, by simp only [he]; exact replies, by simp only [he]; exact client, fresh,
      waitS, fun m hm => ?_, limS, limC⟩⟩
    · rcases List.mem_append.1 hm with hm | hm
      · exact sentC m hm
      · rw [List.mem_singleton.1 hm]; exact Nat.le_refl _
    · rcases List.mem_append.1 hm with hm | hm
      · exact waitC m hm
      · rw [List.mem_singleton.1 hm]; simp only; omega
  | atServer =>
    simp only [step, serverReads] at hs
    cases toServer with
    | nil => cases hs
    | cons m ms =>
      simp only at hs
      cases hs
      have hm := sentS m List.mem_cons_self
      have wm := waitS m List.mem_cons_self
      rw [echoes_cons] at server client
      cases hb : m.echo with
      | false =>
        rw [hb] at server client
        simp only [Bool.false_eq_true, if_false] at server client
        exact ⟨⟨rfl, rfl⟩, ⟨fun x hx => sentS x (List.mem_cons_of_mem _ hx), by simpa using sentC, hrc, Nat.le_refl _, server.mono hrs, by simpa using replies,
          by simpa using client, fresh, fun x hx => waitS x (List.mem_cons_of_mem _ hx), by simpa using waitC, by simp only; omega, limC⟩⟩
      | true =>
        rw [hb] at server client
        simp only [if_true] at server client
        have he : echoes (toClient ++ [⟨now, true⟩]) = echoes toClient ++ [now] := by rw [echoes_push]; rfl
        refine ⟨⟨rfl, rfl⟩, ⟨fun x hx => sentS x (List.mem_cons_of_mem _ hx), fun x hx => ?_, hrc, Nat.le_refl _, server.2.mono hm, ?_, ?_, fresh,
          fun x hx => waitS x (List.mem_cons_of_mem _ hx), fun x hx => ?_, by simp only; omega, limC⟩⟩
        · simp only [if_true] at hx
          rcases List.mem_append.1 hx with hx | hx
          · exact sentC x hx
          · rw [List.mem_singleton.1 hx]; exact Nat.le_refl _
        · simp only [if_true, he]
          exact replies.push (by have := client.1; omega)
        · simp only [if_true, he, lastOr_push]
          exact client.2.mono hm
        · simp only [if_true] at hx
          rcases List.mem_append.1 hx with hx | hx
          · exact waitC x hx
          · rw [List.mem_singleton.1 hx]; simp only; omega
  | atClient =>
    simp only [step, clientReads] at hs
    cases toClient with
    | nil => cases hs
    | cons m ms =>
      simp only at hs
      cases hs
      have hm := sentC m List.mem_cons_self
      rw [echoes_cons] at replies client
      cases hb : m.echo with
      | false =>
        rw [hb] at replies client
        simp only [Bool.false_eq_true, if_false] at replies client
        exact ⟨⟨rfl, rfl⟩, ⟨sentS, fun x hx => sentC x (List.mem_cons_of_mem _ hx), Nat.le_refl _, hrs, server, replies.mono hrc,
          client.mono (lastOr_mono _ hrc), fresh, waitS, fun x hx => waitC x (List.mem_cons_of_mem _ hx), limS, by simp only; omega⟩⟩
      | true =>
        rw [hb] at replies client
        simp only [if_true, lastOr] at replies client
        exact ⟨⟨rfl, rfl⟩, ⟨sentS, fun x hx => sentC x (List.mem_cons_of_mem _ hx), Nat.le_refl _, hrs, server, replies.2.mono hm,
          client.mono (lastOr_mono _ hm), fresh, waitS, fun x hx => waitC x (List.mem_cons_of_mem _ hx), limS, by simp only; omega⟩⟩
  | eofServer => simp only [step, serverEof] at hs; cases hs
  | eofClient => simp only [step, clientEof] at hs; cases hs
  | clientTimeout =>
    simp only [step, clientGivesUp] at hs
    rw [if_neg (by omega)] at hs
    cases hs
  | serverTimeout =>
    simp only [step, serverGivesUp] at hs
    rw [if_neg (by omega)] at hs
    cases hs

theorem inv_step {c : Conf} {d : Nat} (hts : period c.tc + c.late + 2 * d < c.ts) (htc : period c.tc + c.late + 2 * d < c.tc)
    {s s' : State} {e : Ev} (h : Inv c d s) (hw : ∀ t, e = .pass t → Waits d t s) (hs : step c s e = some s') : Inv c d s' := by
  cases h with
  | up hu h =>
    obtain ⟨a, b⟩ := up_step hts htc hu h hw hs
    exact .up a b
  | gone a hp =>
    obtain ⟨now, phase, rxC, nextEcho, srv, rxS, toServer, toClient⟩ := s
    simp only at hp
    subst hp
    cases e <;> simp only [step, tickEcho, serverReads, clientReads, connected, clientGivesUp, serverGivesUp, serverEof, clientEof] at hs
    all_goals first
      | (cases hs; done)
      | (split at hs <;> first
          | (cases hs; done)
          | (cases hs; exact .gone a rfl)
          | (split at hs <;> cases hs <;> exact .gone a rfl))
  | before hsv hp hS hC =>
    obtain ⟨now, phase, rxC, nextEcho, srv, rxS, toServer, toClient⟩ := s
    simp only at hsv hp hS hC
    subst hsv hS hC
    cases phase with
    | connected => exact absurd rfl hp
    | closed a =>
      cases e <;> simp only [step, tickEcho, serverReads, clientReads, connected, clientGivesUp, serverGivesUp, serverEof, clientEof] at hs
      all_goals first
        | (cases hs; done)
        | (split at hs <;> first
            | (cases hs; done)
            | (cases hs; exact .gone a rfl))
    | holdoff due =>
      cases e <;> simp only [step, tickEcho, serverReads, clientReads, connected, clientGivesUp, serverGivesUp, serverEof, clientEof] at hs
      all_goals first
        | (cases hs; done)
        | (split at hs <;> first
            | (cases hs; done)
            | (cases hs; exact .before rfl (by simp) rfl rfl))
    | connecting since =>
      cases e <;> simp only [step, tickEcho, serverReads, clientReads, connected, clientGivesUp, serverGivesUp, serverEof, clientEof] at hs
      case accept =>
        cases hs
        refine .accepted since rfl rfl rfl ?_ ?_ (Nat.le_refl _) (by simp only; omega)
        · rfl
        · intro m hm
          simp only [List.nil_append, List.mem_singleton] at hm
          subst hm
          exact ⟨Nat.le_refl _, Nat.le_refl _⟩
      all_goals first
        | (cases hs; done)
        | (split at hs <;> first
            | (cases hs; done)
            | (cases hs; exact .before rfl (by simp) rfl rfl))
  | accepted since hsv hp hS hC hc hr hw' =>
    obtain ⟨now, phase, rxC, nextEcho, srv, rxS, toServer, toClient⟩ := s
    simp only at hsv hp hS hC hc hr hw'
    subst hsv hp hS
    cases e <;> simp only [step, tickEcho, serverReads, clientReads, connected, clientGivesUp, serverGivesUp, serverEof, clientEof] at hs
    case pass t =>
      split at hs
      · rename_i hd
        cases hs
        obtain ⟨⟨_, _, w⟩, _⟩ := hw t rfl
        have := w since rfl
        simp only at this
        refine .accepted since rfl rfl rfl hC (fun m hm => ?_) ?_ this
        · have := hc m hm; exact ⟨by simp only; omega, this.2⟩
        · simp only; omega
      · cases hs
    case established =>
      cases hs
      refine .up ⟨rfl, rfl⟩ ⟨fun m hm => (by cases hm), fun m hm => (hc m hm).1, Nat.le_refl _, hr, ?_, ?_, ?_, ?_, fun m hm => (by cases hm), fun m hm => ?_, ?_, ?_⟩
      · simp only [echoes, List.filter_nil, List.map_nil, Gaps]; omega
      · simp only [hC, Chain]
      · show Gaps _ (lastOr now (echoes toClient)) [] _
        rw [hC]
        simp only [lastOr, Gaps]; omega
      · simp only; omega
      · have := hc m hm; simp only; omega
      · simp only; omega
      · simp only; omega
    case serverSends =>
      cases hs
      refine .accepted since rfl rfl rfl ?_ (fun m hm => ?_) hr hw'
      · rw [echoes_push, hC]; rfl
      · rcases List.mem_append.1 hm with hm | hm
        · exact hc m hm
        · rw [List.mem_singleton.1 hm]; exact ⟨Nat.le_refl _, hr⟩
    case clientTimeout =>
      split at hs
      · cases hs; exact .gone _ rfl
      · cases hs
    case serverTimeout =>
      rw [if_neg (by omega)] at hs
      cases hs
    all_goals cases hs

theorem run_inv {c : Conf} {d : Nat} (hts : period c.tc + c.late + 2 * d < c.ts) (htc : period c.tc + c.late + 2 * d < c.tc) :
    ∀ {es : List Ev} {s s' : State}, Inv c d s → Prompt c d s es → run c s es = some s' → Inv c d s' := by
  intro es
  induction es with
  | nil => intro s s' h _ hr; simp only [run] at hr; cases hr; exact h
  | cons e es ih =>
    intro s s' h hp hr
    simp only [run] at hr
    cases hs : step c s e with
    | none => rw [hs] at hr; cases hr
    | some s1 => rw [hs] at hr; exact ih (inv_step hts htc h hp.1 hs) (hp.2 s1 hs) hr

theorem run_up {c : Conf} {d : Nat} (hts : period c.tc + c.late + 2 * d < c.ts) (htc : period c.tc + c.late + 2 * d < c.tc) :
    ∀ {es : List Ev} {s s' : State}, Up s → Made c d s → Prompt c d s es → run c s es = some s' → Up s' ∧ Made c d s' := by
  intro es
  induction es with
  | nil => intro s s' hu h _ hr; simp only [run] at hr; cases hr; exact ⟨hu, h⟩
  | cons e es ih =>
    intro s s' hu h hp hr
    simp only [run] at hr
    cases hs : step c s e with
    | none => rw [hs] at hr; cases hr
    | some s1 =>
      rw [hs] at hr
      obtain ⟨a, b⟩ := up_step hts htc hu h hp.1 hs
      exact ih a b (hp.2 s1 hs) hr

theorem inv_init (c : Conf) (d t : Nat) (r : Bool) : Inv c d (init t r) := by
  refine .before rfl ?_ rfl rfl
  unfold init
  cases r <;> simp

theorem inv_made {c : Conf} {d : Nat} {s : State} (h : Inv c d s) (hu : Up s) : Made c d s := by
  cases h with
  | up _ h => exact h
  | before hs => rw [hu.2] at hs; cases hs
  | accepted _ _ hp => rw [hu.1] at hp; cases hp
  | gone _ hp => rw [hu.1] at hp; cases hp

/-! ### C109 -/

/-- Both sides being alive, a connection which was made is kept, however idle or busy it is: when a message needs at most `d` until it is
read, timers run at most `late` late, and an echo message and its answer come round within the timeouts of both sides. -/
theorem C109_kept_partial (c : Conf) (d t : Nat) (reconn : Bool) (before after : List Ev) (s s' : State)
    (hts : period c.tc + c.late + 2 * d < c.ts) (htc : period c.tc + c.late + 2 * d < c.tc)
    (h1 : run c (init t reconn) before = some s) (p1 : Prompt c d (init t reconn) before) (hu : Up s)
    (h2 : run c s after = some s') (p2 : Prompt c d s after) : Up s' :=
  (run_up hts htc hu (inv_made (run_inv hts htc (inv_init c d t reconn) p1 h1) hu) p2 h2).1

/-- In particular if both sides have the same timeout, whichever it is, and there and back takes less than half of it. -/
theorem C109_same (inf T d late t : Nat) (reconn : Bool) (before after : List Ev) (s s' : State)
    (hd : 2 * (late + 2 * d) < enforce inf T)
    (h1 : run ⟨enforce inf T, enforce inf T, late⟩ (init t reconn) before = some s) (p1 : Prompt ⟨enforce inf T, enforce inf T, late⟩ d (init t reconn) before) (hu : Up s)
    (h2 : run ⟨enforce inf T, enforce inf T, late⟩ s after = some s') (p2 : Prompt ⟨enforce inf T, enforce inf T, late⟩ d s after) : Up s' := by
  have := C109_period inf T
  exact C109_kept_partial _ d t reconn before after s s' (by simp only; omega) (by simp only; omega) h1 p1 hu h2 p2

/-- And if the timeout of the server is above fifteen seconds, for every client. -/
theorem C109_any_client (inf T ts d late t : Nat) (reconn : Bool) (before after : List Ev) (s s' : State)
    (hd : 2 * (late + 2 * d) < enforce inf T) (hts : 15 * sec + late + 2 * d < ts)
    (h1 : run ⟨enforce inf T, ts, late⟩ (init t reconn) before = some s) (p1 : Prompt ⟨enforce inf T, ts, late⟩ d (init t reconn) before) (hu : Up s)
    (h2 : run ⟨enforce inf T, ts, late⟩ s after = some s') (p2 : Prompt ⟨enforce inf T, ts, late⟩ d s after) : Up s' := by
  have := C109_period inf T
  have := (period_bounds (enforce inf T)).2
  exact C109_kept_partial _ d t reconn before after s s' (by simp only; omega) (by simp only; omega) h1 p1 hu h2 p2

/-! ### a side which is silent -/

structure Clock (c : Conf) (s : State) : Prop where
  client : s.phase = .connected → s.rxC ≤ s.now ∧ s.now ≤ s.rxC + c.tc + c.late
  server : s.srv = .open_ → s.rxS ≤ s.now ∧ s.now ≤ s.rxS + c.ts + c.late
  attempt : ∀ a, s.phase = .connecting a → a ≤ s.now ∧ s.now ≤ a + c.tc + c.late
  wait : ∀ a, s.phase = .holdoff a → s.now ≤ a + c.late
  ended : ∀ a, s.phase = .closed a → a ≤ s.now
  endedS : ∀ a, s.srv = .closed a → a ≤ s.now

theorem clock_step {c : Conf} {s s' : State} {e : Ev} (h : Clock c s) (hs : step c s e = some s') : Clock c s' := by
  obtain ⟨now, phase, rxC, nextEcho, srv, rxS, toServer, toClient⟩ := s
  obtain ⟨h1, h2, h3, h4, h5, h6⟩ := h
  simp only at h1 h2 h3 h4 h5 h6
  cases e <;> simp only [step, tickEcho, serverReads, clientReads, connected, clientGivesUp, serverGivesUp, serverEof, clientEof] at hs
  case pass t =>
    split at hs
    · rename_i hd
      cases hs
      obtain ⟨d1, d2, d3⟩ := hd
      refine ⟨?_, ?_, ?_, ?_, ?_, ?_⟩
      · intro hp; simp only at hp; subst hp
        simp only [clientDue, Bool.and_eq_true, decide_eq_true_eq] at d2
        have := h1 rfl
        exact ⟨by simp only; omega, d2.2⟩
      · intro hp; simp only at hp; subst hp
        simp only [serverDue, decide_eq_true_eq] at d3
        have := h2 rfl
        exact ⟨by simp only; omega, d3⟩
      · intro a hp; simp only at hp; subst hp
        simp only [clientDue, decide_eq_true_eq] at d2
        have := h3 a rfl
        exact ⟨by simp only; omega, d2⟩
      · intro a hp; simp only at hp; subst hp
        simp only [clientDue, decide_eq_true_eq] at d2
        exact d2
      · intro a hp; have := h5 a hp; simp only; omega
      · intro a hp; have := h6 a hp; simp only; omega
    · cases hs
  all_goals
    repeat' split at hs
  all_goals first
    | (cases hs; done)
    | (cases hs
       refine ⟨?_, ?_, ?_, ?_, ?_, ?_⟩
       all_goals first
         | (intro hp; first | exact h1 hp | exact h2 hp | (cases hp; done) | (refine ⟨?_, ?_⟩ <;> simp only <;> omega))
         | (intro a hp; first | exact h3 a hp | exact h4 a hp | exact h5 a hp | exact h6 a hp | (cases hp; done) |
              (cases hp; first | exact Nat.le_refl _ | (refine ⟨?_, ?_⟩ <;> simp only <;> omega))))

theorem clock_run {c : Conf} : ∀ {es : List Ev} {s s' : State}, Clock c s → run c s es = some s' → Clock c s' := by
  intro es
  induction es with
  | nil => intro s s' h hr; simp only [run] at hr; cases hr; exact h
  | cons e es ih =>
    intro s s' h hr
    simp only [run] at hr
    cases hs : step c s e with
    | none => rw [hs] at hr; cases hr
    | some s1 => rw [hs] at hr; exact ih (clock_step h hs) hr

theorem clock_init (c : Conf) (t : Nat) (r : Bool) : Clock c (init t r) := by
  unfold init
  cases r
  · refine ⟨nofun, nofun, ?_, nofun, nofun, nofun⟩
    intro a h
    cases h
    exact ⟨Nat.le_refl _, by simp only; omega⟩
  · refine ⟨nofun, nofun, nofun, ?_, nofun, nofun⟩
    intro a h
    cases h
    simp only
    omega

/-- nothing is received: the client is where it was, or has closed the connection in time -/
theorem silent_client {c : Conf} : ∀ {es : List Ev} {s s' : State}, Clock c s → s.phase = .connected → (∀ e ∈ es, e ≠ .atClient) → run c s es = some s' →
    (s'.phase = .connected ∧ s'.rxC = s.rxC) ∨ ∃ a, s'.phase = .closed a ∧ a ≤ s.rxC + c.tc + c.late := by
  intro es
  induction es with
  | nil => intro s s' _ h _ hr; simp only [run] at hr; cases hr; exact .inl ⟨h, rfl⟩
  | cons e es ih =>
    intro s s' hk hc hn hr
    simp only [run] at hr
    cases hs : step c s e with
    | none => rw [hs] at hr; cases hr
    | some s1 =>
      rw [hs] at hr
      have k1 := clock_step hk hs
      have : (s1.phase = .connected ∧ s1.rxC = s.rxC) ∨ ∃ a, s1.phase = .closed a ∧ a ≤ s.rxC + c.tc + c.late := by
        obtain ⟨now, phase, rxC, nextEcho, srv, rxS, toServer, toClient⟩ := s
        have h1 := hk.client hc
        simp only at hc h1
        subst hc
        have hne := hn e List.mem_cons_self
        cases e <;> simp only [step, tickEcho, serverReads, clientReads, connected, clientGivesUp, serverGivesUp, serverEof, clientEof] at hs
        case atClient => exact absurd rfl hne
        all_goals
          repeat' split at hs
        all_goals first
          | (cases hs; done)
          | (cases hs; exact .inl ⟨rfl, rfl⟩)
          | (cases hs; exact .inr ⟨_, rfl, h1.2⟩)
      rcases this with ⟨hp, hx⟩ | ⟨a, hp, hx⟩
      · rcases ih k1 hp (fun e he => hn e (List.mem_cons_of_mem _ he)) hr with ⟨a, b⟩ | ⟨a, b, hb⟩
        · exact .inl ⟨a, b.trans hx⟩
        · exact .inr ⟨a, b, by rw [hx] at hb; exact hb⟩
      · right
        refine ⟨a, ?_, hx⟩
        clear ih hs k1 hx hn hk hc
        induction es generalizing s1 with
        | nil => simp only [run] at hr; cases hr; exact hp
        | cons e es ih =>
          simp only [run] at hr
          cases hs : step c s1 e with
          | none => rw [hs] at hr; cases hr
          | some s2 =>
            rw [hs] at hr
            refine ih s2 hr ?_
            obtain ⟨now, phase, rxC, nextEcho, srv, rxS, toServer, toClient⟩ := s1
            simp only at hp
            subst hp
            cases e <;> simp only [step, tickEcho, serverReads, clientReads, connected, clientGivesUp, serverGivesUp, serverEof, clientEof] at hs
            all_goals
              repeat' split at hs
            all_goals first
              | (cases hs; done)
              | (cases hs; rfl)

theorem silent_server {c : Conf} : ∀ {es : List Ev} {s s' : State}, Clock c s → s.srv = .open_ → (∀ e ∈ es, e ≠ .atServer) → run c s es = some s' →
    (s'.srv = .open_ ∧ s'.rxS = s.rxS) ∨ ∃ a, s'.srv = .closed a ∧ a ≤ s.rxS + c.ts + c.late := by
  intro es
  induction es with
  | nil => intro s s' _ h _ hr; simp only [run] at hr; cases hr; exact .inl ⟨h, rfl⟩
  | cons e es ih =>
    intro s s' hk hc hn hr
    simp only [run] at hr
    cases hs : step c s e with
    | none => rw [hs] at hr; cases hr
    | some s1 =>
      rw [hs] at hr
      have k1 := clock_step hk hs
      have : (s1.srv = .open_ ∧ s1.rxS = s.rxS) ∨ ∃ a, s1.srv = .closed a ∧ a ≤ s.rxS + c.ts + c.late := by
        obtain ⟨now, phase, rxC, nextEcho, srv, rxS, toServer, toClient⟩ := s
        have h1 := hk.server hc
        simp only at hc h1
        subst hc
        have hne := hn e List.mem_cons_self
        cases e <;> simp only [step, tickEcho, serverReads, clientReads, connected, clientGivesUp, serverGivesUp, serverEof, clientEof] at hs
        case atServer => exact absurd rfl hne
        all_goals
          repeat' split at hs
        all_goals first
          | (cases hs; done)
          | (cases hs; exact .inl ⟨rfl, rfl⟩)
          | (cases hs; exact .inr ⟨_, rfl, h1.2⟩)
      rcases this with ⟨hp, hx⟩ | ⟨a, hp, hx⟩
      · rcases ih k1 hp (fun e he => hn e (List.mem_cons_of_mem _ he)) hr with ⟨a, b⟩ | ⟨a, b, hb⟩
        · exact .inl ⟨a, b.trans hx⟩
        · exact .inr ⟨a, b, by rw [hx] at hb; exact hb⟩
      · right
        refine ⟨a, ?_, hx⟩
        clear ih hs k1 hx hn hk hc
        induction es generalizing s1 with
        | nil => simp only [run] at hr; cases hr; exact hp
        | cons e es ih =>
          simp only [run] at hr
          cases hs : step c s1 e with
          | none => rw [hs] at hr; cases hr
          | some s2 =>
            rw [hs] at hr
            refine ih s2 hr ?_
            obtain ⟨now, phase, rxC, nextEcho, srv, rxS, toServer, toClient⟩ := s1
            simp only at hp
            subst hp
            cases e <;> simp only [step, tickEcho, serverReads, clientReads, connected, clientGivesUp, serverGivesUp, serverEof, clientEof] at hs
            all_goals
              repeat' split at hs
            all_goals first
              | (cases hs; done)
              | (cases hs; rfl)

/-- A client which hears nothing from its server for as long as its timeout has closed the connection, whatever the network does. -/
theorem C109_dead_server (c : Conf) (t : Nat) (reconn : Bool) (before after : List Ev) (s s' : State)
    (h1 : run c (init t reconn) before = some s) (hc : s.phase = .connected) (h2 : run c s after = some s') (hn : ∀ e ∈ after, e ≠ .atClient)
    (ht : s.now + c.tc + c.late < s'.now) : ∃ a, s'.phase = .closed a ∧ a ≤ s.now + c.tc + c.late := by
  have k := clock_run (clock_init c t reconn) h1
  have k' := clock_run k h2
  have hr := (k.client hc).1
  rcases silent_client k hc hn h2 with ⟨a, b⟩ | ⟨a, b, hb⟩
  · have := (k'.client a).2
    rw [b] at this
    omega
  · exact ⟨a, b, by omega⟩

/-- A server which hears nothing from its client likewise. -/
theorem C109_dead_client (c : Conf) (t : Nat) (reconn : Bool) (before after : List Ev) (s s' : State)
    (h1 : run c (init t reconn) before = some s) (hc : s.srv = .open_) (h2 : run c s after = some s') (hn : ∀ e ∈ after, e ≠ .atServer)
    (ht : s.now + c.ts + c.late < s'.now) : ∃ a, s'.srv = .closed a ∧ a ≤ s.now + c.ts + c.late := by
  have k := clock_run (clock_init c t reconn) h1
  have k' := clock_run k h2
  have hr := (k.server hc).1
  rcases silent_server k hc hn h2 with ⟨a, b⟩ | ⟨a, b, hb⟩
  · have := (k'.server a).2
    rw [b] at this
    omega
  · exact ⟨a, b, by omega⟩

structure Pause (t : Nat) (r : Bool) (s : State) : Prop where
  wait : ∀ a, s.phase = .holdoff a → r = true ∧ a = t + 2000000
  attempt : ∀ a, s.phase = .connecting a → r = true → t + 2000000 ≤ a
  silent : s.phase ≠ .connected → (∀ a, s.phase ≠ .closed a) → s.toServer = []

theorem pause_step {c : Conf} {t : Nat} {r : Bool} {s s' : State} {e : Ev} (h : Pause t r s) (hs : step c s e = some s') : Pause t r s' := by
  obtain ⟨now, phase, rxC, nextEcho, srv, rxS, toServer, toClient⟩ := s
  obtain ⟨h1, h2, h3⟩ := h
  simp only at h1 h2 h3
  cases e <;> simp only [step, tickEcho, serverReads, clientReads, connected, clientGivesUp, serverGivesUp, serverEof, clientEof] at hs
  case tick =>
    split at hs
    · rename_i due
      split at hs
      · cases hs
        refine ⟨nofun, ?_, fun _ _ => h3 nofun nofun⟩
        intro a ha _
        cases ha
        have := (h1 due rfl).2
        omega
      · cases hs
    · split at hs
      · cases hs
        exact ⟨nofun, nofun, fun h => absurd rfl h⟩
      · cases hs
    · cases hs
  case atServer =>
    split at hs
    · rename_i m ms
      cases hs
      refine ⟨h1, h2, ?_⟩
      intro a b
      have := h3 a b
      cases this
    · cases hs
  all_goals
    repeat' split at hs
  all_goals first
    | (cases hs; done)
    | (cases hs; exact ⟨h1, h2, h3⟩)
    | (cases hs; exact ⟨nofun, nofun, fun h => absurd rfl h⟩)
    | (cases hs; exact ⟨nofun, nofun, fun _ h => absurd rfl (h _)⟩)

theorem pause_run {c : Conf} {t : Nat} {r : Bool} : ∀ {es : List Ev} {s s' : State}, Pause t r s → run c s es = some s' → Pause t r s' := by
  intro es
  induction es with
  | nil => intro s s' h hr; simp only [run] at hr; cases hr; exact h
  | cons e es ih =>
    intro s s' h hr
    simp only [run] at hr
    cases hs : step c s e with
    | none => rw [hs] at hr; cases hr
    | some s1 => rw [hs] at hr; exact ih (pause_step h hs) hr

/-- An attempt to connect lasts no longer than the timeout; one which follows a lost connection begins after two seconds, neither sooner nor
(but for the lateness of timers) later; and nothing is sent until the connection is made. -/
theorem C109_attempt (c : Conf) (t : Nat) (reconn : Bool) (es : List Ev) (s : State) (h : run c (init t reconn) es = some s) :
    (∀ a, s.phase = .connecting a → a ≤ s.now ∧ s.now ≤ a + c.tc + c.late ∧ (reconn = true → t + 2000000 ≤ a) ∧ s.toServer = []) ∧
    (∀ a, s.phase = .holdoff a → reconn = true ∧ s.now ≤ t + 2000000 + c.late ∧ s.toServer = []) := by
  have k := clock_run (clock_init c t reconn) h
  have q : Pause t reconn (init t reconn) := by
    unfold init
    cases reconn
    · exact ⟨nofun, nofun, fun _ _ => rfl⟩
    · refine ⟨?_, nofun, fun _ _ => rfl⟩
      intro a ha
      cases ha
      exact ⟨rfl, rfl⟩
  have q := pause_run q h
  refine ⟨fun a ha => ⟨(k.attempt a ha).1, (k.attempt a ha).2, q.attempt a ha, q.silent (by rw [ha]; nofun) (by rw [ha]; nofun)⟩, fun a ha => ?_⟩
  have := k.wait a ha
  obtain ⟨h1, h2⟩ := q.wait a ha
  exact ⟨h1, by omega, q.silent (by rw [ha]; nofun) (by rw [ha]; nofun)⟩

/-! ### the other side is told -/

structure Told (d : Nat) (s : State) : Prop where
  server : ∀ a, s.phase = .closed a → s.srv = .open_ → s.now ≤ a + d
  client : ∀ a, s.srv = .closed a → s.phase = .connected → s.now ≤ a + d

theorem told_step {c : Conf} {d : Nat} {s s' : State} {e : Ev} (h : Told d s) (hw : ∀ t, e = .pass t → Waits d t s) (hs : step c s e = some s') : Told d s' := by
  obtain ⟨now, phase, rxC, nextEcho, srv, rxS, toServer, toClient⟩ := s
  obtain ⟨h1, h2⟩ := h
  simp only at h1 h2
  cases e <;> simp only [step, tickEcho, serverReads, clientReads, connected, clientGivesUp, serverGivesUp, serverEof, clientEof] at hs
  case pass t =>
    split at hs
    · cases hs
      have w := hw t rfl
      constructor
      · intro a ha hb
        simp only at ha hb
        subst ha hb
        exact w.1.2.1 a rfl
      · intro a ha hb
        simp only at ha hb
        subst ha hb
        exact w.2.2 a rfl
    · cases hs
  all_goals
    repeat' split at hs
  all_goals first
    | (cases hs; done)
    | (cases hs; exact ⟨h1, h2⟩)
    | (cases hs; constructor <;> intro a ha hb <;> first | (cases ha; done) | (cases hb; done) | (cases ha; simp only; omega))

/-- Once one side has closed the connection the other has too, within the time a message takes. -/
theorem C109_told (c : Conf) (d t : Nat) (reconn : Bool) : ∀ (es : List Ev) (s : State), run c (init t reconn) es = some s → Prompt c d (init t reconn) es →
    (∀ a, s.phase = .closed a → a + d < s.now → s.srv ≠ .open_) ∧ (∀ a, s.srv = .closed a → a + d < s.now → s.phase ≠ .connected) := by
  have gen : ∀ (es : List Ev) (s0 s : State), Told d s0 → run c s0 es = some s → Prompt c d s0 es → Told d s := by
    intro es
    induction es with
    | nil => intro s0 s h hr _; simp only [run] at hr; cases hr; exact h
    | cons e es ih =>
      intro s0 s h hr hp
      simp only [run] at hr
      cases hs : step c s0 e with
      | none => rw [hs] at hr; cases hr
      | some s1 => rw [hs] at hr; exact ih s1 s (told_step h hp.1 hs) hr (hp.2 s1 hs)
  intro es s hr hp
  have i : Told d (init t reconn) := by
    unfold init
    cases reconn
    · exact ⟨nofun, nofun⟩
    · exact ⟨nofun, nofun⟩
  have h := gen es _ s i hr hp
  refine ⟨fun a ha hb hc => ?_, fun a ha hb hc => ?_⟩
  · have := h.server a ha hc; omega
  · have := h.client a ha hc; omega

/-! ### what goes wrong -/

/-- The client asks for an answer as often as its own timeout needs, which may be too rarely for the server: if the timeout of the server is
below the client's period, a server which is up, and a network which needs no time at all, an idle connection is closed by the server. -/
theorem C109_mismatch (inf T T' t : Nat) (h : enforce inf T' < period (enforce inf T)) : ∃ es s,
    run ⟨enforce inf T, enforce inf T', 0⟩ (init t false) es = some s ∧ Prompt ⟨enforce inf T, enforce inf T', 0⟩ 0 (init t false) es ∧
    (∃ es' s', es' <+: es ∧ run ⟨enforce inf T, enforce inf T', 0⟩ (init t false) es' = some s' ∧ Up s') ∧ s.phase = .closed (t + enforce inf T') := by
  have hb := C109_period inf T
  have key : ∀ (tc ts : Nat), ts < period tc → 2 * period tc ≤ tc → ∃ es s,
      run ⟨tc, ts, 0⟩ (init t false) es = some s ∧ Prompt ⟨tc, ts, 0⟩ 0 (init t false) es ∧
      (∃ es' s', es' <+: es ∧ run ⟨tc, ts, 0⟩ (init t false) es' = some s' ∧ Up s') ∧ s.phase = .closed (t + ts) := by
    intro tc ts h1 h2
    refine ⟨[.accept, .established, .atClient, .pass (t + ts), .serverTimeout, .eofClient], ⟨t + ts, .closed (t + ts), t, t + period tc, .closed (t + ts), t, [], []⟩, ?_, ?_, ?_, rfl⟩
    · have e1 : t + ts ≤ t + period tc := by omega
      have e2 : t + ts ≤ t + tc := by omega
      simp [run, step, init, connected, clientReads, clientDue, serverDue, serverGivesUp, clientEof, e1, e2]
    · refine ⟨nofun, fun s1 e1 => ?_⟩
      simp only [step, init] at e1
      cases e1
      refine ⟨nofun, fun s2 e2 => ?_⟩
      simp only [step, connected] at e2
      cases e2
      refine ⟨nofun, fun s3 e3 => ?_⟩
      simp only [step, clientReads] at e3
      cases e3
      refine ⟨?_, fun s4 e4 => ⟨nofun, fun s5 e5 => ⟨nofun, fun s6 e6 => trivial⟩⟩⟩
      intro t' _
      exact ⟨⟨nofun, nofun, nofun⟩, ⟨nofun, nofun⟩⟩
    · refine ⟨[.accept, .established], ⟨t, .connected, t, t + period tc, .open_, t, [], [⟨t, false⟩]⟩, ⟨[.atClient, .pass (t + ts), .serverTimeout, .eofClient], rfl⟩, ?_, rfl, rfl⟩
      simp [run, step, init, connected]
  exact key _ _ h hb

/-- for instance a server for which 5 seconds are configured (EPICS_PVA_CONN_TMO, times 4/3) with a client which has the default -/
example : enforce (2 ^ 63) 6666666 < period (enforce (2 ^ 63) (40 * sec)) := by decide

/-! ### the hypotheses are met -/

/-- `Waits`, to be computed -/
def waitsB (d t : Nat) (s : State) : Bool :=
  (match s.srv with
    | .open_ => s.toServer.all (fun m => t ≤ m.sent + d) &&
      (match s.phase with
        | .closed a => t ≤ a + d
        | .connecting _ => t ≤ s.rxS + d
        | _ => true)
    | _ => true) &&
  (match s.phase with
    | .connected => s.toClient.all (fun m => t ≤ m.sent + d) && (match s.srv with | .closed a => t ≤ a + d | _ => true)
    | _ => true)

theorem waits_of {d t : Nat} {s : State} (h : waitsB d t s = true) : Waits d t s := by
  obtain ⟨now, phase, rxC, nextEcho, srv, rxS, toServer, toClient⟩ := s
  unfold waitsB at h
  unfold Waits
  cases srv <;> cases phase <;> simp_all

def promptB (c : Conf) (d : Nat) (s : State) : List Ev → Bool
  | [] => true
  | e :: es => (match e with | .pass t => waitsB d t s | _ => true) && (match step c s e with | some s' => promptB c d s' es | none => true)

theorem prompt_of {c : Conf} {d : Nat} : ∀ {es : List Ev} {s : State}, promptB c d s es = true → Prompt c d s es := by
  intro es
  induction es with
  | nil => intro s _; trivial
  | cons e es ih =>
    intro s h
    simp only [promptB, Bool.and_eq_true] at h
    refine ⟨?_, ?_⟩
    · rintro t rfl
      exact waits_of h.1
    · intro s' hs
      rw [hs] at h
      exact ih h.2

/-- a second connection to a server: the pause, the attempt, a network which needs four seconds, and an idle minute -/
def story : List Ev := [.pass (2 * sec), .tick, .pass (3 * sec), .accept, .pass (5 * sec), .established, .atClient, .pass (20 * sec), .tick,
  .pass (24 * sec), .atServer, .pass (28 * sec), .atClient, .pass (35 * sec), .tick, .pass (39 * sec), .atServer, .pass (43 * sec), .atClient,
  .pass (50 * sec), .tick, .pass (54 * sec), .atServer, .pass (57 * sec)]

example : promptB ⟨40 * sec, 40 * sec, 0⟩ (4 * sec) (init 0 true) story = true := by decide
example : (run ⟨40 * sec, 40 * sec, 0⟩ (init 0 true) story).map (fun s => (s.now, s.rxC, s.rxS)) = some (57 * sec, 43 * sec, 54 * sec) := by decide
example : period (40 * sec) + 0 + 2 * (4 * sec) < 40 * sec := by decide

/-- the server stops: the client closes the connection after its timeout -/
example : (run ⟨40 * sec, 40 * sec, 0⟩ (init 0 false) [.accept, .established, .pass (15 * sec), .tick, .pass (30 * sec), .tick, .pass (40 * sec), .clientTimeout]).map
    (fun s => match s.phase with | .closed a => a | _ => 0) = some (40 * sec) := by decide

end Pvxs.Props.Alive
