import Verif.Lemmas.Conn
/-
C20, C21: how a connection turns bytes into messages.
-/
namespace Pvxs.Props
open Pvxs Wire Spec

/-- C20: what a connection does with the bytes it receives does not depend on how they were cut into pieces on the way: the
whole state, including what the handlers did, is the same. -/
theorem C20_chunks (h : Handler σ) (isClient be : Bool) (app : σ) (cs ds : List (List Byte)) (hcd : cs.flatten = ds.flatten) :
    receiveAll h (newRx isClient be app) cs = receiveAll h (newRx isClient be app) ds := by
  rw [receiveAll_eq cs (resting_new ..), receiveAll_eq ds (resting_new ..), hcd]

/-- any number of single bytes does as well as one delivery -/
example (h : Handler σ) (app : σ) (bs : List Byte) :
    receiveAll h (newRx true false app) [bs] = receiveAll h (newRx true false app) (bs.map ([·])) :=
  C20_chunks h true false app _ _ (by
    rw [← List.flatMap_def]; simp)

/-- C20: complete messages are acted on in order, each once and with its own header; a message of which a part has been
received is not acted on; nothing is acted on after the connection was closed. -/
theorem C20_messages (h : Handler σ) (isClient be : Bool) (app : σ) (items : List Item) (hok : ∀ i ∈ items, i.OK)
    (next : Item) (hnext : next.OK) (n : Nat) (hn : n < (next.bytes isClient).length)
    (cs : List (List Byte)) (hcs : cs.flatten = stream isClient items ++ (next.bytes isClient).take n) :
    let s := receiveAll h (newRx isClient be app) cs
    let w := Want.run h ⟨none, be, app⟩ items
    s.isOpen = w.2 ∧ s.app = w.1.app ∧ s.sendBE = w.1.sendBE := by
  intro s w
  have hs : s = settle (final h (push (newRx isClient be app) cs.flatten)) := receiveAll_eq cs (resting_new ..)
  rw [hcs, push_open rfl] at hs
  obtain ⟨s1, e1, o1, c1, a1, b1, r1⟩ := run_items (h := h) items (s := newRx isClient be app) (w := ⟨none, be, app⟩) rfl
    ⟨rfl, rfl, ⟨rfl, rfl⟩⟩ hok ((next.bytes isClient).take n)
  have e2 : final h s1 = s1 := by
    cases hr : (Want.run h ⟨none, be, app⟩ items).2
    · rw [hr] at o1; exact close_final o1
    · obtain ⟨rx1, _⟩ := r1 hr
      rw [hr] at o1
      exact final_stuck (partial_waits o1 next hnext n (by rw [c1]; exact hn) (by rw [rx1, c1]; rfl))
  have e3 : s = settle s1 := by rw [hs, ← e2]; exact congrArg settle e1
  obtain ⟨k1, k2, k3⟩ := settle_keeps s1
  rw [e3]
  exact ⟨k1.trans o1, k2.trans a1, k3.trans b1⟩

/-- a message handler for the examples: remembers what it was called with; command 9 closes the connection -/
def recorder : Handler (List Msg) := fun l m => (l ++ [m], m.cmd ≠ 9)

/-- two messages and a half: the first two are acted on -/
example (cs : List (List Byte))
    (hcs : cs.flatten = stream true [.app 2 true .only 1 [7], .app 2 false .only 2 []] ++ (Item.bytes true (.app 2 true .only 3 [1, 2])).take 9) :
    (receiveAll recorder (newRx true true []) cs).app = [⟨1, true, 2, [7]⟩, ⟨2, false, 2, []⟩] :=
  (C20_messages recorder true true [] [.app 2 true .only 1 [7], .app 2 false .only 2 []] (by simp [Item.OK])
    (.app 2 true .only 3 [1, 2]) (by simp [Item.OK]) 9 (by simp [Item.bytes, bytes4]) cs hcs).2.1

/-- C20: bytes which are not a message of the other side close the connection; nothing after them is acted on -/
theorem C20_garbage (h : Handler σ) (isClient be : Bool) (app : σ) (items : List Item) (hok : ∀ i ∈ items, i.OK)
    (h0 h1 h2 h3 l0 l1 l2 l3 : Byte) (hbad : h0 ≠ 0xca ∨ h1 = 0 ∨ (h2 &&& 0x40 ≠ 0 ↔ isClient = false)) (rest : List Byte)
    (cs : List (List Byte)) (hcs : cs.flatten = stream isClient items ++ h0 :: h1 :: h2 :: h3 :: l0 :: l1 :: l2 :: l3 :: rest) :
    let s := receiveAll h (newRx isClient be app) cs
    let w := Want.run h ⟨none, be, app⟩ items
    s.isOpen = false ∧ s.app = w.1.app := by
  intro s w
  have hs : s = settle (final h (push (newRx isClient be app) cs.flatten)) := receiveAll_eq cs (resting_new ..)
  rw [hcs, push_open rfl] at hs
  obtain ⟨s1, e1, o1, c1, a1, b1, r1⟩ := run_items (h := h) items (s := newRx isClient be app) (w := ⟨none, be, app⟩) rfl
    ⟨rfl, rfl, ⟨rfl, rfl⟩⟩ hok (h0 :: h1 :: h2 :: h3 :: l0 :: l1 :: l2 :: l3 :: rest)
  have e3 : s = settle (final h s1) := hs.trans (congrArg settle e1)
  cases hr : (Want.run h ⟨none, be, app⟩ items).2
  · rw [hr] at o1
    rw [close_final o1, settle_closed o1] at e3
    rw [e3]
    exact ⟨o1, a1⟩
  · obtain ⟨rx1, _⟩ := r1 hr
    rw [hr] at o1
    have c1' : s1.isClient = isClient := c1
    have hb : badHeader isClient h0 h1 h2 = true := by
      simp only [badHeader]
      rcases hbad with hb | hb | hb
      · simp [hb]
      · simp [hb]
      · cases isClient <;> simp_all
    have hst : rxStep h s1 = some s1.close := by
      simp only [rxStep, o1, Bool.not_true, Bool.false_eq_true, if_false, rx1, c1', hb, if_true]
    rw [final_step hst, close_final rfl, settle_closed rfl] at e3
    rw [e3]
    exact ⟨rfl, a1⟩

/-- the bytes a message carries for the application -/
def bodyOf : Item → List Byte
  | .control .. => []
  | .app _ _ _ _ body => body

/-- C21: a message which was cut into segments, possibly with control messages in between, is acted on once, when the last one has
arrived, and with the bodies joined in order.  (Version and byte order are those of the last segment.) -/
theorem C21_segments (h : Handler σ) (isClient be : Bool) (app : σ) (v v' cmd : Byte) (hv : v ≠ 0) (hv' : v' ≠ 0) (mbe mbe' : Bool)
    (a z : List Byte) (ha : a.length < 2 ^ 32) (hz : z.length < 2 ^ 32) (mid : List Item) (hmid : ∀ i ∈ mid, i.OK)
    (hkind : ∀ i ∈ mid, match i with | .control .. => True | .app _ _ g c _ => g = .middle ∧ c = cmd)
    (cs : List (List Byte))
    (hcs : cs.flatten = stream isClient ([.app v mbe .first cmd a] ++ mid ++ [.app v' mbe' .last cmd z])) :
    let s := receiveAll h (newRx isClient be app) cs
    let r := h app ⟨cmd, mbe', v', a ++ mid.flatMap bodyOf ++ z⟩
    s.isOpen = r.2 ∧ s.app = r.1 := by
  intro s r
  have key : ∀ (mid : List Item) (b : List Byte) (be : Bool), (∀ i ∈ mid, match i with | .control .. => True | .app _ _ g c _ => g = .middle ∧ c = cmd) →
      (Want.run h ⟨some (cmd, b), be, app⟩ (mid ++ [.app v' mbe' .last cmd z])).2 = (h app ⟨cmd, mbe', v', b ++ mid.flatMap bodyOf ++ z⟩).2 ∧
      (Want.run h ⟨some (cmd, b), be, app⟩ (mid ++ [.app v' mbe' .last cmd z])).1.app = (h app ⟨cmd, mbe', v', b ++ mid.flatMap bodyOf ++ z⟩).1 := by
    intro mid
    induction mid with
    | nil => intro b be _; simp only [List.nil_append, Want.run, Want.step, Want.act, if_true, List.flatMap_nil, List.append_nil]; split <;> simp_all
    | cons m ms ih =>
      intro b be hk
      have hm := hk m (List.mem_cons_self ..)
      cases m with
      | control _ cbe _ c _ =>
        simp only [List.cons_append, Want.run, Want.step, if_true]
        exact ih b _ (fun i hi => hk i (List.mem_cons_of_mem _ hi))
      | app _ _ g c x =>
        obtain ⟨rfl, rfl⟩ := hm
        simp only [List.cons_append, Want.run, Want.step, if_true]
        have := ih (b ++ x) be (fun i hi => hk i (List.mem_cons_of_mem _ hi))
        simpa [bodyOf] using this
  have := C20_messages h isClient be app ([.app v mbe .first cmd a] ++ mid ++ [.app v' mbe' .last cmd z]) (by
      intro i hi
      simp only [List.mem_append, List.mem_singleton] at hi
      rcases hi with (rfl | hm) | rfl
      · exact ⟨hv, ha⟩
      · exact hmid _ hm
      · exact ⟨hv', hz⟩) (.app 1 true .only 0 []) ⟨by decide, by decide⟩ 0 (by simp [Item.bytes]) cs (by rw [hcs]; simp)
  obtain ⟨k1, k2⟩ := key mid a be hkind
  exact ⟨this.1.trans k1, this.2.1.trans k2⟩

example (cs : List (List Byte))
    (hcs : cs.flatten = stream false ([.app 2 true .first 5 [1]] ++ [.app 2 true .middle 5 [2], .control 2 true 0 2 [0, 0, 0, 0]] ++ [.app 2 true .last 5 [3]])) :
    (receiveAll recorder (newRx false true []) cs).app = [⟨5, true, 2, [1, 2, 3]⟩] :=
  (C21_segments recorder false true [] 2 2 5 (by decide) (by decide) true true [1] [3] (by decide) (by decide)
    [.app 2 true .middle 5 [2], .control 2 true 0 2 [0, 0, 0, 0]] (by simp [Item.OK]) (by simp) cs hcs).2

/-- C21: anything but the next segment of the same message, in the middle of a message, closes the connection, as does a segment out of place; the
message begun is never acted on, nor is what follows. -/
theorem C21_violation (h : Handler σ) (isClient be : Bool) (app : σ) (items more : List Item) (hok : ∀ i ∈ items, i.OK) (hmore : ∀ i ∈ more, i.OK)
    (v cmd : Byte) (mbe : Bool) (seg : Seg) (body : List Byte) (hbad : (Item.app v mbe seg cmd body).OK)
    (hopen : (Want.run h ⟨none, be, app⟩ items).2 = true)
    (hout : match (Want.run h ⟨none, be, app⟩ items).1.partly with
      | none => seg = .middle ∨ seg = .last
      | some (c, _) => seg = .only ∨ seg = .first ∨ c ≠ cmd)
    (cs : List (List Byte)) (hcs : cs.flatten = stream isClient (items ++ .app v mbe seg cmd body :: more)) :
    let s := receiveAll h (newRx isClient be app) cs
    s.isOpen = false ∧ s.app = (Want.run h ⟨none, be, app⟩ items).1.app := by
  intro s
  have happ : ∀ (xs ys : List Item) (w : Want σ), (Want.run h w xs).2 = true → Want.run h w (xs ++ ys) = Want.run h (Want.run h w xs).1 ys := by
    intro xs ys
    induction xs with
    | nil => intro w _; rfl
    | cons x xs ih =>
      intro w hw
      simp only [List.cons_append, Want.run] at hw ⊢
      split
      · rename_i h1; rw [if_pos h1] at hw; exact ih _ hw
      · rename_i h1; rw [if_neg h1] at hw; exact absurd hw h1
  have hrun := happ items (.app v mbe seg cmd body :: more) ⟨none, be, app⟩ hopen
  have hstep : (Want.run h ⟨none, be, app⟩ items).1.step h (.app v mbe seg cmd body) = ((Want.run h ⟨none, be, app⟩ items).1, false) := by
    revert hout
    cases hp : (Want.run h ⟨none, be, app⟩ items).1.partly with
    | none => rintro (rfl | rfl) <;> simp [Want.step, hp]
    | some cb =>
      obtain ⟨c, b⟩ := cb
      intro hh
      cases seg <;> simp_all [Want.step]
  simp only [Want.run, hstep, Bool.false_eq_true, if_false] at hrun
  have := C20_messages h isClient be app (items ++ .app v mbe seg cmd body :: more) (by
      intro i hi
      simp only [List.mem_append, List.mem_cons] at hi
      rcases hi with hi | rfl | hi
      · exact hok i hi
      · exact hbad
      · exact hmore i hi) (.app 1 true .only 0 []) ⟨by decide, by decide⟩ 0 (by simp [Item.bytes]) cs (by rw [hcs]; simp)
  rw [hrun] at this
  exact ⟨this.1, this.2.1⟩

/-- another message between two segments -/
example (cs : List (List Byte)) (hcs : cs.flatten = stream false ([.app 2 true .only 4 [], .app 2 true .first 5 [1]] ++ .app 2 true .only 4 [] :: [.app 2 true .last 5 [3]])) :
    (receiveAll recorder (newRx false true []) cs).isOpen = false ∧ (receiveAll recorder (newRx false true []) cs).app = [⟨4, true, 2, []⟩] :=
  C21_violation recorder false true [] [.app 2 true .only 4 [], .app 2 true .first 5 [1]] [.app 2 true .last 5 [3]] (by simp [Item.OK]) (by simp [Item.OK])
    2 4 true .only [] (by simp [Item.OK]) (by rfl) (by exact .inl rfl) cs hcs

end Pvxs.Props
