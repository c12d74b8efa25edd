import Verif.Lemmas.ClientChan3
/-
C71..C73: the channels of a client, its connections, and its name servers.
-/
namespace Pvxs.Props
open Pvxs.ClientChan Pvxs.Spec.ClientChan

/-- C71, in part.  After any history, from a client with any name servers: nothing has crashed; each channel in use is searched for, or waits for a connection
which is open or about to be, or has been asked for, or is connected; and each operation which has been started, and has not ended, waits for its channel or has been
asked of the server the channel is connected to now.
Missing: histories in which a server gives one ID to two channels, or in which an attempt to connect fails at once; see `C71_same_id`, `C71_refused_at_once` and
`C71_refused_later`. -/
theorem C71_partial (ns : List (Nat × Option Nat)) (es : List Ev) (h : Usual es { ns := ns }) :
    (run es { ns := ns }).crashed = false ∧
    (∀ c ∈ (told es).live, Minded (run es { ns := ns }) c) ∧
    (∀ c op, (c, op) ∈ (told es).todo → Waits (run es { ns := ns }) c op ∨ Asked (run es { ns := ns }) c op) := by
  obtain ⟨h1, h2, h3⟩ := run_all es (inv_init' ns) (sound_init ns) (knows_init ns) h
  exact ⟨h1.fine, fun c hc => minded h1 h2 ((h3.live c).1 hc), fun c op ho => asked h1 (h3.todo c op ho).1 (h3.todo c op ho).2⟩

/-- and, in part: no channel is ever stuck.  After any history there are answers of servers which connect a given channel, and then each of its operations has been asked
of its server. -/
theorem C71_connects_partial (ns : List (Nat × Option Nat)) (es : List Ev) (h : Usual es { ns := ns }) (c : Nat) (hc : c ∈ (told es).live) :
    ∃ fs : List Ev, (∀ e ∈ fs, Answer e) ∧ Usual (es ++ fs) { ns := ns } ∧ ((run (es ++ fs) { ns := ns }).chans c).st = .active ∧
      ∀ op, (c, op) ∈ (told es).todo → Asked (run (es ++ fs) { ns := ns }) c op := by
  obtain ⟨h1, h2, h3⟩ := run_all es (inv_init' ns) (sound_init ns) (knows_init ns) h
  obtain ⟨fs, f1, f2, f3⟩ := reach h1 h2 ((h3.live c).1 hc)
  have hu := usual_append es fs h f2
  refine ⟨fs, f1, hu, by rw [run_append]; exact f3, fun op ho => ?_⟩
  have same : ∀ (fs : List Ev) (t : Told), (∀ e ∈ fs, Answer e) → fs.foldl tell t = t := by
    intro fs
    induction fs with
    | nil => intro t _; rfl
    | cons e fs ih =>
      intro t ha
      have he : tell t e = t := by
        have := ha e (by simp)
        cases e <;> first | rfl | exact this.elim
      rw [List.foldl_cons, he]
      exact ih t (fun x hx => ha x (by simp [hx]))
  have ht : told (es ++ fs) = told es := by unfold told; rw [List.foldl_append]; exact same fs _ f1
  rcases (C71_partial ns (es ++ fs) hu).2.2 c op (by rw [ht]; exact ho) with q | q
  · exact absurd (by rw [run_append]; exact f3) q.1
  · exact q

/-- two channels of one server, an operation on each; the connection is lost, one channel is found again and connected, with its operation -/
example : ∃ es : List Ev, Usual es {} ∧ (told es).live = [0, 1] ∧ (told es).todo = [(0, 10), (1, 11)] ∧
    Asked (run es {}) 0 10 ∧ Waits (run es {}) 1 11 ∧ Minded (run es {}) 1 :=
  ⟨[.newChan none false, .newChan none false, .start 0 10, .reply 0 5 false, .reply 1 5 false, .connected 0, .validated 0, .created 0 0 7 true, .created 0 1 8 true,
    .start 1 11, .lost 0, .reply 0 5 false, .connected 1, .validated 1, .created 1 0 3 true],
   by
    refine ⟨trivial, trivial, trivial, trivial, trivial, trivial, trivial, ?_, ?_, trivial, trivial, trivial, trivial, trivial, ?_, trivial⟩ <;>
    · intro c h1 h2 h3 h4
      match c with
      | 0 => revert h4; decide
      | 1 => revert h4; decide
      | c + 2 => revert h1; exact fun h => (by cases h),
   by decide, by decide, ⟨by decide, 1, 0, by decide, by decide, by decide, by decide⟩, ⟨by decide, by decide⟩, by show 1 ∈ _; decide⟩

/-- one channel of one server given with server(): it is lost, and waits for the hold-off -/
example : Minded (run [.newChan (some 5) false, .connected 0, .validated 0, .created 0 0 7 true, .lost 0] {}) 0 :=
  ⟨1, by decide, .inr ⟨by decide, by decide, by decide⟩, by decide, by decide⟩

/-- C71 is false of the code when a server gives the same ID to a second channel: the first remains "connected" to a connection which no longer exists, for good -/
theorem C71_same_id : ∃ es : List Ev, 0 ∈ (told es).live ∧ ¬Minded (run es {}) 0 ∧
    ((run es {}).chans 0).st = .active ∧ (∀ k, ((run es {}).chans 0).conn = some k → ¬Open (run es {}) k) := by
  refine ⟨[.newChan none false, .newChan none false, .reply 0 5 false, .reply 1 5 false, .connected 0, .validated 0, .created 0 0 7 true, .created 0 1 7 true, .lost 0],
    by decide, ?_, by decide, ?_⟩
  · rintro ⟨k, h1, h2, _⟩
    have e : ((run [.newChan none false, .newChan none false, .reply 0 5 false, .reply 1 5 false, .connected 0, .validated 0, .created 0 0 7 true, .created 0 1 7 true, .lost 0] {}).chans 0).conn
      = some 0 := by decide
    rw [e] at h1; cases h1
    exact absurd h2.2 (by decide)
  · intro k h1 h2
    have e : ((run [.newChan none false, .newChan none false, .reply 0 5 false, .reply 1 5 false, .connected 0, .validated 0, .created 0 0 7 true, .created 0 1 7 true, .lost 0] {}).chans 0).conn
      = some 0 := by decide
    rw [e] at h1; cases h1
    exact absurd h2.2 (by decide)

/-- and with an operation on the first, the program is aborted -/
theorem C71_same_id_abort : ∃ es : List Ev, (run es {}).crashed = true :=
  ⟨[.newChan none false, .newChan none false, .start 0 10, .reply 0 5 false, .reply 1 5 false, .connected 0, .validated 0, .created 0 0 7 true, .created 0 1 7 true, .lost 0], by decide⟩

/-- C71 is false of the code when a connection to a server given with server() is refused at once: the channel is neither searched for nor waits for a connection.
(The application has had an exception for its first operation, but further ones share the channel.) -/
theorem C71_refused_at_once : ∃ es : List Ev, 0 ∈ (told es).live ∧ (0, 10) ∈ (told es).todo ∧ ¬Minded (run es {}) 0 ∧ ((run es {}).chans 0).conn = none ∧ (run es {}).ring = [] := by
  refine ⟨[.newChan (some 5) true, .start 0 10], by decide, by decide, ?_, by decide, by decide⟩
  intro h
  have h : 0 ∈ (run [.newChan (some 5) true, .start 0 10] {}).ring := h
  exact absurd h (by decide)

/-- nor when that happens after the hold-off -/
theorem C71_refused_later : ∃ es : List Ev, 0 ∈ (told es).live ∧ ¬Minded (run es {}) 0 ∧
    ∀ k, ((run es {}).chans 0).conn = some k → ¬Open (run es {}) k ∧ ¬Soon (run es {}) k := by
  have key : ∀ k, ((run [.newChan (some 5) false, .connected 0, .lost 0, .retry 1 true] {}).chans 0).conn = some k →
      ¬Open (run [.newChan (some 5) false, .connected 0, .lost 0, .retry 1 true] {}) k ∧ ¬Soon (run [.newChan (some 5) false, .connected 0, .lost 0, .retry 1 true] {}) k := by
    intro k h1
    have e : ((run [.newChan (some 5) false, .connected 0, .lost 0, .retry 1 true] {}).chans 0).conn = some 1 := by decide
    rw [e] at h1; cases h1
    exact ⟨fun h => absurd h.2 (by decide), fun h => absurd h.2.2 (by decide)⟩
  refine ⟨[.newChan (some 5) false, .connected 0, .lost 0, .retry 1 true], by decide, ?_, key⟩
  rintro ⟨k, h1, h2, _⟩
  exact h2.elim (key k h1).1 (key k h1).2

/-- C72, in part.  When neither server() nor name servers are used, and no server refuses a channel: there is at most one connection to each server, and after close()
there is none.
Missing: these three; see `C72_two` and `C72_close`. -/
theorem C72_partial (es : List Ev) (h : Usual es {}) (hn : ∀ e ∈ es, NoTrace e) :
    (∀ k k', Open (run es {}) k ∨ Soon (run es {}) k → Open (run es {}) k' ∨ Soon (run es {}) k' → ((run es {}).conns k).addr = ((run es {}).conns k').addr → k = k') ∧
    (∀ k, ¬Open (run (es ++ [.close]) {}) k ∧ ¬Soon (run (es ++ [.close]) {}) k) := by
  obtain ⟨h1, h2⟩ := one_run es (inv_init' []) one_init (fun _ h => (by cases h)) h hn
  have h3 := (run_all es (inv_init' []) (sound_init []) (knows_init []) h).1
  refine ⟨fun k k' a a' e => h1.uniq k k' (a.elim (·.1) (·.1)) (a'.elim (·.1) (·.1)) e, fun k => ?_⟩
  rw [run_append]
  exact one_close h1 h2 h3.running k

/-- two servers, one of which is lost and found again -/
example : ∃ es : List Ev, Usual es {} ∧ (∀ e ∈ es, NoTrace e) ∧ Open (run es {}) 1 ∧ Open (run es {}) 2 ∧ ((run es {}).conns 1).addr = 6 ∧ ((run es {}).conns 2).addr = 5 :=
  ⟨[.newChan none false, .newChan none false, .reply 0 5 false, .reply 1 6 false, .connected 0, .lost 0, .reply 0 5 false],
   ⟨trivial, trivial, trivial, trivial, trivial, trivial, trivial, trivial⟩,
   by intro e he; simp only [List.mem_cons, List.not_mem_nil, or_false] at he; rcases he with rfl | rfl | rfl | rfl | rfl | rfl | rfl <;> trivial,
   ⟨by decide, by decide⟩, ⟨by decide, by decide⟩, by decide, by decide⟩

/-- C72 is false of the code: the object of a lost connection is destroyed after a new one to the same server was made, and removes the new one from the list of connections.
Another channel of this server then opens a second. -/
theorem C72_two : ∃ (es : List Ev) (k k' : Nat), Usual es {} ∧ k ≠ k' ∧ Open (run es {}) k ∧ Open (run es {}) k' ∧ ((run es {}).conns k).addr = ((run es {}).conns k').addr :=
  ⟨[.newChan (some 5) false, .connected 0, .validated 0, .created 0 0 7 true, .lost 0, .newChan none false, .reply 1 5 false, .retry 1 false], 1, 2,
   by
    refine ⟨rfl, trivial, trivial, ?_, trivial, trivial, trivial, rfl, trivial⟩
    intro c h1 h2 h3 h4
    match c with
    | 0 => revert h2; decide
    | c + 1 => revert h1; exact fun h => (by cases h),
   by decide, ⟨by decide, by decide⟩, ⟨by decide, by decide⟩, by decide⟩

/-- and close() leaves it open -/
theorem C72_close : ∃ (es : List Ev) (k : Nat), Open (run (es ++ [.close]) {}) k ∧ (run (es ++ [.close]) {}).running = false :=
  ⟨[.newChan (some 5) false, .connected 0, .validated 0, .created 0 0 7 true, .lost 0, .retry 1 false, .connected 1], 1, ⟨by decide, by decide⟩, by decide⟩

/-- the same after a server has refused a channel: the channel still holds the first connection when it is lost, and lets go of it only when a second has been made -/
theorem C72_two_refused : ∃ (es : List Ev) (k k' : Nat), Usual es {} ∧ k ≠ k' ∧ Open (run es {}) k ∧ Open (run es {}) k' ∧ ((run es {}).conns k).addr = ((run es {}).conns k').addr :=
  ⟨[.newChan none false, .reply 0 5 false, .connected 0, .validated 0, .created 0 0 0 false, .lost 0, .reply 0 5 false, .newChan none false, .reply 1 5 false], 1, 2,
   ⟨trivial, trivial, trivial, trivial, trivial, trivial, trivial, trivial, trivial, trivial⟩, by decide, ⟨by decide, by decide⟩, ⟨by decide, by decide⟩, by decide⟩

/-- C73, in part.  After any history, the next check gives each name server a connection which is open or about to be.
Missing: a connection which the client closed itself; see `C73_stays_closed`. -/
theorem C73_partial (as : List Nat) (es : List Ev) (h : Usual es { ns := as.map fun a => (a, none) }) (hc : Clean es { ns := as.map fun a => (a, none) }) :
    (run (es ++ [.nsCheck false]) { ns := as.map fun a => (a, none) }).ns.map (·.1) = as ∧
    ∀ a o, (a, o) ∈ (run (es ++ [.nsCheck false]) { ns := as.map fun a => (a, none) }).ns → Served (run (es ++ [.nsCheck false]) { ns := as.map fun a => (a, none) }) a o := by
  obtain ⟨h1, h2, h3⟩ := entries_run es (inv_init' (as.map fun a => (a, none))) (fun a k hm => by
    obtain ⟨b, _, e⟩ := List.mem_map.1 hm; cases e) h hc
  obtain ⟨g1, g2⟩ := served h1 h2
  rw [run_append]
  refine ⟨g1.trans (h3.trans ?_), g2⟩
  show (as.map fun a => (a, none)).map (·.1) = as
  rw [List.map_map]
  exact List.map_id as

/-- two name servers, one of them lost -/
example : ∃ es : List Ev, Usual es { ns := [5, 6].map fun a => (a, none) } ∧ Clean es { ns := [5, 6].map fun a => (a, none) } ∧
    ¬Open (run es { ns := [5, 6].map fun a => (a, none) }) 0 ∧ (run (es ++ [.nsCheck false]) { ns := [5, 6].map fun a => (a, none) }).ns = [(5, some 2), (6, some 1)] :=
  ⟨[.nsCheck false, .connected 0, .connected 1, .validated 0, .lost 0], ⟨trivial, trivial, trivial, trivial, trivial, trivial⟩, ⟨trivial, trivial, trivial, trivial, trivial, trivial⟩,
   fun h => absurd h.2 (by decide), by decide⟩

/-- C73 is false of the code: a name server whose connection the client closed itself is never connected to again, whatever happens -/
theorem C73_stays_closed : ∃ (es : List Ev) (a : Nat), Usual es { ns := [(a, none)] } ∧
    ∀ fs : List Ev, (∀ e ∈ fs, e ≠ .close) → ∃ k, (a, some k) ∈ (run (es ++ fs) { ns := [(a, none)] }).ns ∧
      ¬Open (run (es ++ fs) { ns := [(a, none)] }) k ∧ ¬Soon (run (es ++ fs) { ns := [(a, none)] }) k := by
  refine ⟨[.nsCheck false, .connected 0, .violation 0], 5, ⟨trivial, trivial, trivial, trivial⟩, fun fs hf => ⟨0, ?_⟩⟩
  have h : Dropped 5 0 (run [.nsCheck false, .connected 0, .violation 0] { ns := [(5, none)] }) := ⟨by decide, by decide, by decide, by decide, by decide⟩
  have h := dropped_run fs h hf
  rw [run_append]
  refine ⟨h.mem, fun ho => ?_, fun ho => ?_⟩
  · have := ho.2; rw [h.bev] at this; cases this
  · have := ho.2.2; rw [h.timer] at this; cases this

end Pvxs.Props
