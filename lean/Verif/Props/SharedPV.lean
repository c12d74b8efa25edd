import Verif.Lemmas.SharedPVMore
/-
C29, C30, C31: SharedPV.

`run start es` is the SharedPV, with its clients, after the events `es`.  Its log `out` tells which calls of the application
succeeded; `trace` is what was done to subscriptions (Model/ServerMon.lean), that is `sys` is the result of `trace`.
-/
namespace Pvxs.Props
open Pvxs Pvxs.SPV Pvxs.Spec.SPV
open Pvxs.Mon (Upd Mon merge)
open Pvxs.Spec.Mon (dataOf queued mergeAll)

/-- the subscriptions are those of Model/ServerMon.lean -/
theorem SPV_trace (es : List Ev) : (run start es).sys = Mon.run Spec.Mon.start (run start es).trace := (run_base es).sys

/-! ### examples -/

/-- a client subscribes, the application opens the PV, posts, a second client subscribes, and the application posts again -/
def busy : List Ev := [.attach, .subscribe false 0 none [true, true], .op, .open 5 [some 1, some 10], .connect 0, .insert 0,
  .peer (.ctl 0 none (some true) false), .peer (.work 0), .post 5 [some 2, none], .fan, .attach, .subscribe false 0 none [true, false],
  .connect 1, .peer (.ctl 1 none (some true) false), .insert 1, .peer (.work 1), .post 5 [some 3, some 30], .fan, .fan,
  .peer (.work 0), .peer (.work 0), .fetch]

/-- post() runs while the second subscription is being attached -/
def raced : List Ev := [.open 5 [some 1], .subscribe false 0 none [true], .post 5 [some 2], .connect 0, .insert 0, .fetch]

/-! ### C30 -/

/-- C30, for fetch() and GET: the value is the one opened with all posts since assigned in order. -/
theorem C30_value (es : List Ev) : (run start es).current = valueOf (run start es).out := (run_life es).cur

/-- C30: and this is what fetch(), and a GET, returns. -/
theorem C30_fetch (es : List Ev) (h : (run start es).locked = false) :
    (run start (es ++ [.fetch])).out = (run start es).out ++ [.value ((valueOf (run start es).out).map (·.2))] := by
  rw [run_snoc, ← C30_value]
  simp only [step, h]; rfl

example : (run start busy).out.getLast? = some (.value (some [some 3, some 30])) ∧ (run start busy).locked = false := by decide

/-- C30, order: the application not calling open(), post() or close() just while the subscription is being attached, post() of the
subscription is called for the value when it was attached, and for the posts since, in order, and for nothing else. -/
theorem C30_order_partial (es : List Ev) (i : Nat) (h : NoRace i es) :
    callsTo i Spec.Mon.start (run start es).trace <+: due i false (run start es).out := run_prefix i es h

/-- C30, none is missed: while it is attached, and no post() is in progress, the subscription has been told of all. -/
theorem C30_calls_partial (es : List Ev) (i : Nat) (h : NoRace i es) (hs : i ∈ (run start es).subscribers) (hf : (run start es).locked = false) :
    callsTo i Spec.Mon.start (run start es).trace = due i false (run start es).out := by
  obtain ⟨_, _, _, _, h3, _⟩ := (run_good i es h).sub hs
  have hf : (run start es).fan = [] := not_locked (by simpa using hf)
  rw [hf] at h3
  simpa [calls] using h3

/-- C30: ... and of all fields it is interested in, the last value sent to it, or queued, is the current one. -/
theorem C30_converges_partial (es : List Ev) (i : Nat) (h : NoRace i es) (hs : i ∈ (run start es).subscribers) (hf : (run start es).locked = false)
    (m : Mon) (hm : (run start es).sys.mons[i]? = some m) :
    ∃ ty v, valueOf (run start es).out = some (ty, v)
      ∧ ∀ k : Nat, m.mask[k]? = some true → (mergeAll (dataOf m.sent ++ queued (run start es).sys m))[k]?.join = v[k]?.join := by
  obtain ⟨ty, v, h1, _, _, h4⟩ := (run_good i es h).sub hs
  refine ⟨ty, v, by rw [← C30_value]; exact h1, fun k hk => ?_⟩
  have := Mon.view_eq (run start es).sys m k
  unfold Mon.fld at this
  rw [← this]
  rcases (h4 m hm).2 k hk with h | ⟨h, _⟩
  · exact h
  · have hf : (run start es).fan = [] := not_locked (by simpa using hf)
    rw [hf] at h; cases h

/-- C30: a subscription which is still wanted when the SharedPV gets round to it is attached ... -/
theorem C30_attaches (es : List Ev) (i : Nat) (a : Attach) (ha : a ∈ (run start es).attaching) (hs : a.sub = i) (hc : a.connected = false)
    (m : Mon) (hm : (run start es).sys.mons[i]? = some m) (hst : m.state = .creating) (hf : (run start es).locked = false) :
    i ∈ (run start (es ++ [.connect i, .insert i])).subscribers := by
  have e1 : run start (es ++ [.connect i, .insert i]) = step (step (run start es) (.connect i)) (.insert i) := by simp [run, List.foldl_append]
  rw [e1]
  generalize run start es = w at *
  cases hfi : w.attaching.find? (fun a => a.sub == i && !a.connected) with
  | none => exact absurd (by simp [hs, hc]) (List.find?_eq_none.1 hfi a ha)
  | some b =>
    have hmem := List.mem_of_find?_eq_some hfi
    have hp := List.find?_some hfi
    simp only [Bool.and_eq_true, beq_iff_eq, Bool.not_eq_true'] at hp
    have hcon : step w (.connect i) = { ((w.act (.setup i true)).act (.post i b.cell false false)) with attaching := mark i w.attaching } := by
      simp only [step, connect, hfi, hm, hst, if_true]; rfl
    rw [hcon]
    have hany : (mark i w.attaching).any (fun a => a.sub == i && a.connected) = true := by
      rw [List.any_eq_true]
      exact ⟨{ b with connected := true }, List.mem_map.2 ⟨b, hmem, by simp [hp.1]⟩, by simp [hp.1]⟩
    have hl : ({ ((w.act (.setup i true)).act (.post i b.cell false false)) with attaching := mark i w.attaching } : World).locked = false := hf
    simp only [step, hl, SPV.insert, hany, if_true, Bool.false_eq_true, if_false]
    show i ∈ (if i ∈ w.subscribers then w.subscribers else w.subscribers ++ [i])
    split
    · assumption
    · simp

/-- ... and stays so until it ends, or the PV is closed. -/
theorem C30_stays (pre es : List Ev) (i : Nat) (h : i ∈ (run start pre).subscribers) (h1 : Ev.subClosed i ∉ es) (h2 : Ev.close ∉ es) :
    i ∈ (run start (pre ++ es)).subscribers := by
  have : run start (pre ++ es) = run (run start pre) es := by simp [run, List.foldl_append]
  rw [this]; exact sub_run es _ h h1 h2

/-- C30: a subscription which has ended is forgotten ... -/
theorem C30_forgotten (es : List Ev) (i : Nat) (hl : (run start es).locked = false) :
    i ∉ (run start (es ++ [.subClosed i])).subscribers ∧ i ∉ (run start (es ++ [.subClosed i])).mpending := by
  rw [run_snoc]
  simp only [step, hl, Bool.false_eq_true, if_false, subClosed]
  have h := (run_base es).cnt i
  unfold tot at h
  constructor
  · rw [← List.count_eq_zero, List.count_erase_self]; omega
  · rw [← List.count_eq_zero, List.count_erase_self]; omega

/-- ... unless it ends just while it is being attached.  It then stays registered although it has ended. -/
theorem C30_not_forgotten : ∃ es, ∃ i : Nat, ∃ m : Mon, Ev.subClosed i ∈ es ∧ i ∈ (run start es).subscribers
    ∧ (run start es).sys.mons[i]? = some m ∧ m.state = .dead := by
  refine ⟨[.open 5 [some 1], .subscribe false 0 none [true], .connect 0, .subClosed 0, .insert 0], 0, ?_⟩
  exact ⟨_, by decide, by decide, rfl, by decide⟩

/-- executable form of `NoRace` -/
def noRace (i : Nat) : World → List Ev → Bool
  | _, [] => true
  | w, e :: es => (!attaching w i || !changes e) && noRace i (step w e) es
theorem noRace_ok (i : Nat) : ∀ es w, noRace i w es = true → ∀ pre e post, es = pre ++ e :: post → attaching (run w pre) i = true → changes e = false
  | [], w, _, pre, e, post, he, _ => by simp at he
  | x :: es, w, h, pre, e, post, he, ha => by
    simp only [noRace, Bool.and_eq_true, Bool.or_eq_true, Bool.not_eq_true'] at h
    cases pre with
    | nil =>
      simp only [List.nil_append, List.cons.injEq] at he
      rw [← he.1]
      rcases h.1 with h | h
      · have ha : attaching w i = true := ha
        rw [h] at ha; cases ha
      · exact h
    | cons y pre =>
      simp only [List.cons_append, List.cons.injEq] at he
      rw [← he.1] at ha
      exact noRace_ok i es (step w x) h.2 pre e post he.2 ha

example : NoRace 0 busy ∧ NoRace 1 busy := ⟨noRace_ok 0 busy start (by decide), noRace_ok 1 busy start (by decide)⟩
example : (run start busy).subscribers = [0, 1] ∧ (run start busy).locked = false
    ∧ callsTo 0 Spec.Mon.start (run start busy).trace = [[some 1, some 10], [some 2, none], [some 3, some 30]]
    ∧ callsTo 1 Spec.Mon.start (run start busy).trace = [[some 2, some 10], [some 3, some 30]]
    ∧ ((run start busy).sys.mons[0]?.map fun m => (dataOf m.sent, queued (run start busy).sys m))
      = some ([[some 1, some 10], [some 2, none], [some 3, some 30]], [])
    ∧ ((run start busy).sys.mons[1]?.map fun m => (dataOf m.sent, queued (run start busy).sys m))
      = some ([[some 2, none]], [[some 3, some 30]]) := by decide

/-- C30 is violated: a post() just while a subscription is being attached is lost to it.  It stays with the previous value. -/
theorem C30_missed_post : ∃ es, ∃ i : Nat, ∃ m : Mon, i ∈ (run start es).subscribers ∧ (run start es).locked = false
    ∧ (run start es).sys.mons[i]? = some m
    ∧ due i false (run start es).out = [[some 1], [some 2]] ∧ callsTo i Spec.Mon.start (run start es).trace = [[some 1]]
    ∧ valueOf (run start es).out = some (5, [some 2]) ∧ mergeAll (dataOf m.sent ++ queued (run start es).sys m) = [some 1] := by
  refine ⟨raced, 0, ?_⟩
  exact ⟨_, by decide, by decide, rfl, by decide, by decide, by decide, by decide⟩

/-! ### C29 -/

/-- a client subscribes, and another with a shorter queue, which never starts -/
def slowOther (other : Bool) : List Ev :=
  [.open 5 [some 0], .subscribe false 0 none [true], .connect 0, .insert 0] ++
  (if other then [.subscribe false 2 (some 2) [true], .connect 1, .insert 1] else []) ++
  [.peer (.ctl 0 none (some true) false), .peer (.work 0)] ++
  [.post 5 [some 1], .fan, .fan, .post 5 [some 2], .fan, .fan, .post 5 [some 3], .fan, .fan] ++
  [.peer (.work 0), .peer (.work 0), .peer (.work 0)]

/-- C29 is violated by SharedPV: all subscriptions share the Value which post() makes, and a queue which is full merges later ones into it.
Here a client with a queue long enough does not see value 1, and sees 3 before 2: because of another one, which is slow. -/
theorem C29_sharedpv :
    ((run start (slowOther false)).sys.mons[0]?.map fun m => dataOf m.sent) = some [[some 0], [some 1], [some 2], [some 3]]
    ∧ ((run start (slowOther true)).sys.mons[0]?.map fun m => dataOf m.sent) = some [[some 0], [some 3], [some 2], [some 3]] := by decide

/-! ### C31 -/

/-- C31: open() is refused while the PV is open, and then changes nothing.  Otherwise everybody who waits is served: all operations are
told the type, and all subscriptions start from the new value. -/
theorem C31_open (es : List Ev) (ty : Nat) (v : Upd) (hl : (run start es).locked = false) :
    let w := run start es
    let w' := run start (es ++ [.open ty v])
    ((valueOf w.out).isSome → w' = { w with out := w.out ++ [.refused] })
    ∧ (valueOf w.out = none → valueOf w'.out = some (ty, v)
        ∧ (∀ i, i < w.nops → Ev.opClosed i ∈ es ∨ ∃ ty', .connectOp i ty' ∈ w'.out)
        ∧ ∀ i ∈ w.mpending, .attached i v ∈ w'.out ∧ ∃ a ∈ w'.attaching, a.sub = i) := by
  intro w w'
  have hw' : w' = «open» w ty v := by
    show run start (es ++ [.open ty v]) = _
    rw [run_snoc]; simp only [step, hl, Bool.false_eq_true, if_false]; rfl
  constructor
  · intro h
    rw [← C30_value] at h
    rw [hw']; unfold «open»; rw [if_pos h]; rfl
  · intro h
    rw [← C30_value] at h
    have hn : ¬ w.current.isSome = true := by show ¬ (run start es).current.isSome = true; rw [h]; simp
    have hcur : w'.current = some (ty, v) := by rw [hw']; unfold «open»; rw [if_neg hn]
    refine ⟨by rw [← hcur]; exact (C30_value (es ++ [.open ty v])).symm, fun i hi => ?_, fun i hi => ?_⟩
    · have hno : w'.nops = w.nops := by rw [hw']; unfold «open»; rw [if_neg hn]; rfl
      have hp : w'.pending = [] := by rw [hw']; unfold «open»; rw [if_neg hn]
      rcases run_ops (es ++ [.open ty v]) i (by show i < w'.nops; rw [hno]; exact hi) with h | h | h
      · have h : i ∈ w'.pending := h
        rw [hp] at h; cases h
      · left; simpa using h
      · exact .inr h
    · rw [hw']; unfold «open»; rw [if_neg hn]
      refine ⟨?_, ⟨i, w.sys.heap.length, false⟩, ?_, rfl⟩
      · show _ ∈ w.out ++ (.opened ty v :: w.mpending.map (fun i => .attached i v) ++ w.pending.map (fun i => .connectOp i ty))
        simp [hi]
      · show _ ∈ w.attaching ++ w.mpending.map fun i => (⟨i, w.sys.heap.length, false⟩ : Attach)
        simp [hi]

/-- C31: while the PV is open nobody waits. -/
theorem C31_none_waits (es : List Ev) (h : (valueOf (run start es).out).isSome) :
    (run start es).mpending = [] ∧ ∀ i, i < (run start es).nops → Ev.opClosed i ∈ es ∨ ∃ ty, .connectOp i ty ∈ (run start es).out := by
  rw [← C30_value] at h
  refine ⟨((run_life es).wait h).2, fun i hi => ?_⟩
  rcases run_ops es i hi with hh | hh
  · rw [((run_life es).wait h).1] at hh; cases hh
  · exact hh

/-- C31: post() is refused while the PV is closed, or if the type is another one.  It then changes nothing. -/
theorem C31_post_refused (es : List Ev) (ty : Nat) (v : Upd) (hl : (run start es).locked = false)
    (h : ∀ u, valueOf (run start es).out ≠ some (ty, u)) :
    run start (es ++ [.post ty v]) = { run start es with out := (run start es).out ++ [.refused] } := by
  rw [run_snoc]; simp only [step, hl, Bool.false_eq_true, if_false, post]
  rw [← C30_value] at h
  split
  · rfl
  · rename_i ty0 u hcur
    have : ty0 ≠ ty := fun he => h u (by rw [← he]; exact hcur)
    rw [if_pos this]; rfl

/-- C31: otherwise it succeeds. -/
theorem C31_post (es : List Ev) (ty : Nat) (u v : Upd) (hl : (run start es).locked = false) (h : valueOf (run start es).out = some (ty, u)) :
    valueOf (run start (es ++ [.post ty v])).out = some (ty, merge u v) := by
  rw [← C30_value] at h
  rw [← C30_value, run_snoc]; simp only [step, hl, Bool.false_eq_true, if_false, post, h]
  simp

/-- C31: fetch(), and GET, fail while the PV is closed. -/
theorem C31_fetch_refused (es : List Ev) (hl : (run start es).locked = false) (h : valueOf (run start es).out = none) :
    (run start (es ++ [.fetch])).out = (run start es).out ++ [.value none] := by
  rw [C30_fetch es hl, h]; rfl

/-- C31: after close() the PV is closed, has no subscriber, and every channel whose end has not yet been reported has been closed. -/
theorem C31_close (es : List Ev) (hl : (run start es).locked = false) :
    let w' := run start (es ++ [.close])
    valueOf w'.out = none ∧ w'.subscribers = [] ∧ ∀ c ∈ w'.live, .closeChan c ∈ w'.out := by
  intro w'
  have hw' : w' = close (run start es) := by
    show run start (es ++ [.close]) = _
    rw [run_snoc]; simp only [step, hl, Bool.false_eq_true, if_false]
  refine ⟨?_, by rw [hw']; rfl, fun c hc => ?_⟩
  · rw [← C30_value]; show w'.current = none; rw [hw']; rfl
  · rcases (run_life (es ++ [.close])).live c hc with h | h
    · have h : c ∈ w'.channels := h
      rw [hw'] at h; cases h
    · exact h

/-- C31, unless close() is called: onFirstConnect() and onLastDisconnect() are called in turn, and it was onFirstConnect() last if and only
if there are channels. -/
theorem C31_clients_partial (es : List Ev) (h : Ev.close ∉ es) :
    let l := clients (run start es).out
    (∀ k, k < l.length → l[k]? = some (k % 2 == 0)) ∧ (l.length % 2 = 1 ↔ (run start es).live ≠ []) := by
  obtain ⟨h1, h2, h3⟩ := run_alt es h
  exact ⟨h2, by rw [← h1]; exact h3⟩

/-- C31 is violated: if close() is called while there are two channels, onLastDisconnect() is called twice. -/
theorem C31_last_twice : ∃ es, clients (run start es).out = [true, false, false] ∧ (run start es).nchan = 2 := by
  refine ⟨[.open 5 [some 1], .attach, .attach, .close, .chanClosed 0, .chanClosed 1], ?_⟩
  decide

/-- C31 is violated: a client which comes after close(), before the end of the previous channel, is reported by onFirstConnect() although
onLastDisconnect() has not been called; and then onLastDisconnect() is not called for the previous one. -/
theorem C31_first_twice : ∃ es, clients (run start es).out = [true, true] ∧ (run start es).live = [1] := by
  refine ⟨[.open 5 [some 1], .attach, .close, .attach, .chanClosed 0], ?_⟩
  decide

example : (run start busy).live = [0, 1] ∧ clients (run start busy).out = [true] ∧ (run start busy).nops = 1
    ∧ Out.connectOp 0 5 ∈ (run start busy).out ∧ Ev.close ∉ busy
    ∧ (run start (busy ++ [.close])).out.drop (run start busy).out.length = [.closed, .closeChan 0, .closeChan 1]
    ∧ (run start (busy ++ [.open 6 [some 1]])).out.getLast? = some .refused
    ∧ (run start (busy ++ [.post 6 [some 1]])).out.getLast? = some .refused := by decide
example : valueOf (run start (busy ++ [.close])).out = none ∧ (run start (busy ++ [.close])).locked = false := by decide
example : (run start [.subscribe false 0 none [true], .op]).mpending = [0] ∧ (run start [.subscribe false 0 none [true], .op]).nops = 1 := by decide

end Pvxs.Props
