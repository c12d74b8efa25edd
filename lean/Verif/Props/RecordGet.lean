import Verif.Spec.RecordGet
/-! Property C77 -/
namespace Pvxs.Props.RecGet
open Pvxs Pvxs.RecGet Pvxs.Spec.RecGet

/-- the class of an alarm which a client is told is the one of the record's alarm; what is not an alarm of epics-base is "undefined" -/
theorem C77_status (s : Nat) : (∀ l c, (l, c) ∈ classes → s ∈ l → pvaStatus s = c) ∧ ((∀ l c, (l, c) ∈ classes → s ∉ l) → pvaStatus s = 6) ∧ (pvaStatus s = 0 ↔ s = 0) := by
  by_cases h : s < 22
  · have : ∀ s : Fin 22, (∀ p ∈ classes, s.1 ∈ p.1 → pvaStatus s.1 = p.2) ∧ (∃ p ∈ classes, s.1 ∈ p.1) ∧ (pvaStatus s.1 = 0 ↔ s.1 = 0) := by decide
    obtain ⟨a, ⟨p, b1, b2⟩, c⟩ := this ⟨s, h⟩
    exact ⟨fun l c h1 h2 => a (l, c) h1 h2, fun hn => absurd b2 (hn p.1 p.2 b1), c⟩
  · have h6 : pvaStatus s = 6 := by
      unfold pvaStatus
      split <;> first | omega | rfl
    refine ⟨?_, fun _ => h6, by rw [h6]; omega⟩
    intro l c h1 h2
    exfalso
    simp only [classes, List.mem_cons, Prod.mk.injEq, List.not_mem_nil, or_false] at h1
    rcases h1 with ⟨rfl, _⟩ | ⟨rfl, _⟩ | ⟨rfl, _⟩ | ⟨rfl, _⟩ | ⟨rfl, _⟩ <;> simp at h2 <;> omega

theorem and_low (n k : Nat) : n &&& (2 ^ k - 1) = n % 2 ^ k := Nat.and_two_pow_sub_one_eq_mod n k

theorem inv32_zero : inv32 0 = 2 ^ 32 - 1 := by decide

/-- with the tag "nsec:lsb:k" the nanoseconds of the record are split: the k lowest bits are the user tag, and the others are the nanoseconds, so that together they are
the nanoseconds of the record -/
theorem C77_time (names : Nat → Str) (k : Nat) (h0 : 0 < k) (hk : k ≤ 32) (r : Rec) (hn : r.nsec < 2 ^ 32) :
    (singleGet names (nsecMask k) r).userTag = some (r.nsec % 2 ^ k) ∧ (singleGet names (nsecMask k) r).nanoseconds = some (r.nsec - r.nsec % 2 ^ k) ∧
    (singleGet names (nsecMask k) r).seconds = some (r.sec + 631152000) := by
  have hm : nsecMask k = 2 ^ k - 1 := by
    unfold nsecMask
    have : 2 ^ k ≤ 2 ^ 32 := Nat.pow_le_pow_right (by decide) hk
    have : 0 < 2 ^ k := Nat.two_pow_pos k
    exact Nat.mod_eq_of_lt (by omega)
  have hm0 : nsecMask k ≠ 0 := by
    rw [hm]
    have : 2 ^ 1 ≤ 2 ^ k := Nat.pow_le_pow_right (by decide) h0
    omega
  have e1 : (singleGet names (nsecMask k) r).userTag = some (if nsecMask k ≠ 0 then r.nsec &&& nsecMask k else r.utag) := rfl
  have e2 : (singleGet names (nsecMask k) r).nanoseconds = some (r.nsec &&& inv32 (nsecMask k)) := rfl
  rw [e1, e2, if_pos hm0, hm]
  refine ⟨by rw [and_low], ?_, rfl⟩
  congr 1
  have : (r.nsec &&& inv32 (2 ^ k - 1)) + (r.nsec % 2 ^ k) = r.nsec := by
    have hand : (r.nsec &&& inv32 (2 ^ k - 1)) = r.nsec / 2 ^ k * 2 ^ k := by
      apply Nat.eq_of_testBit_eq
      intro i
      unfold inv32
      rw [Nat.testBit_and, Nat.testBit_xor, Nat.testBit_two_pow_sub_one, Nat.testBit_two_pow_sub_one, Nat.testBit_mul_two_pow, Nat.testBit_div_two_pow]
      by_cases hi : i < 32
      · by_cases hik : i < k
        · have : ¬ k ≤ i := by omega
          simp [hi, hik, this]
        · have : k ≤ i := by omega
          simp [hi, hik, this, Nat.sub_add_cancel]
      · have : r.nsec.testBit i = false := Nat.testBit_lt_two_pow (Nat.lt_of_lt_of_le hn (Nat.pow_le_pow_right (by decide) (by omega)))
        have hki : k ≤ i := by omega
        simp [this, Nat.sub_add_cancel hki]
    rw [hand, Nat.mul_comm]
    exact Nat.div_add_mod r.nsec (2 ^ k)
  omega

example : (singleGet (fun _ => []) (nsecMask 4) ⟨1, 0, 0, [], 10, 123456789, 99, 7⟩).userTag = some 5 ∧
    (singleGet (fun _ => []) (nsecMask 4) ⟨1, 0, 0, [], 10, 123456789, 99, 7⟩).nanoseconds = some 123456784 := by decide

/-- a get reports all there is of a record, its time as it is -/
theorem C77_get (names : Nat → Str) (r : Rec) (hn : r.nsec < 2 ^ 32) :
    singleGet names 0 r = ⟨some r.value, some (pvaStatus r.status), some r.severity, some (alarmText names r), some (r.sec + 631152000), some r.nsec, some r.utag, some r.props⟩ := by
  have : r.nsec &&& inv32 0 = r.nsec := by rw [inv32_zero, and_low]; exact Nat.mod_eq_of_lt hn
  show (⟨some r.value, some (pvaStatus r.status), some r.severity, some (alarmText names r), some (r.sec + epoch), some (r.nsec &&& inv32 0), some r.utag, some r.props⟩ : Node) = _
  rw [this]
  rfl

/-- the message of an alarm is the one of the record, or the name of the condition; there is none without an alarm -/
theorem C77_message (names : Nat → Str) (r : Rec) :
    (r.amsg ≠ [] → alarmText names r = r.amsg) ∧ (r.amsg = [] → r.status = 0 → alarmText names r = []) ∧
    (r.amsg = [] → r.status ≠ 0 → r.status < 22 → alarmText names r = names r.status) := by
  unfold alarmText
  refine ⟨fun h => by rw [if_pos h], fun h h2 => by simp [h, h2], fun h h2 h3 => by simp [h, h2, h3]⟩

/-! ### subscriptions -/

theorem or_assoc' {α : Type} (a b c : Option α) : (a.or b).or c = a.or (b.or c) := by cases a <;> rfl
theorem learn_assoc (a b c : Node) : learn a (learn b c) = learn (learn a b) c := by
  simp only [learn, or_assoc']
theorem learn_empty (a : Node) : learn a {} = a := by simp [learn]
theorem empty_learn (a : Node) : learn {} a = a := by simp [learn]

theorem get_learn (names : Nat → Str) (change : Nat) (r : Rec) (n : Node) : get names 0 change r n = learn n (get names 0 change r {}) := by
  unfold RecGet.get getTimeAlarm
  dsimp only
  split <;> split <;> split <;> (try split) <;> simp [learn]

/-- what an event tells -/
def told (names : Nat → Str) : Event → Node
  | .value m r => get names 0 (changeOf m) r {}
  | .property r => get names 0 DBE_PROPERTY r {}

theorem foldl_learn (l : List Node) (a : Node) : l.foldl learn a = learn a (l.foldl learn {}) := by
  induction l generalizing a with
  | nil => simp [learn_empty]
  | cons x l ih => rw [List.foldl_cons, ih, List.foldl_cons, ih (learn {} x), empty_learn, learn_assoc]

theorem run_knows (names : Nat → Str) : ∀ (es : List Event) (s : Sub),
    learn (knows (run names s es).2) (run names s es).1.cur = learn s.cur (knows (es.map (told names)))
  | [], s => by simp [run, knows, learn_empty, empty_learn]
  | e :: es, s => by
    have ih := run_knows names es (step names s e).1
    simp only [run]
    have hk : knows ((step names s e).2 ++ (run names (step names s e).1 es).2) = learn (knows (step names s e).2) (knows (run names (step names s e).1 es).2) := by
      unfold knows
      rw [List.foldl_append, foldl_learn]
    have hc : learn (knows (step names s e).2) (step names s e).1.cur = learn s.cur (told names e) := by
      have hpost : ∀ t : Sub, learn (knows (post t).2) (post t).1.cur = t.cur := by
        intro t
        unfold post
        split
        · simp [knows, learn_empty, empty_learn]
        · simp [knows, empty_learn]
      cases e with
      | value m r => rw [show step names s (.value m r) = post _ from rfl, hpost]; exact get_learn names (changeOf m) r s.cur
      | property r => rw [show step names s (.property r) = post _ from rfl, hpost]; exact get_learn names DBE_PROPERTY r s.cur
    rw [hk, ← learn_assoc, ih, learn_assoc, hc]
    have : knows ((e :: es).map (told names)) = learn (told names e) (knows (es.map (told names))) := by
      unfold knows
      rw [List.map_cons, List.foldl_cons, foldl_learn, empty_learn]
    rw [this, learn_assoc]

/-- the flags -/
theorem run_flags (names : Nat → Str) : ∀ (es : List Event) (s : Sub),
    (run names s es).1.hadValue = (s.hadValue || es.any isValueEvent) ∧ (run names s es).1.hadProperty = (s.hadProperty || es.any fun e => !isValueEvent e) ∧
    ((s.hadValue = true → s.hadProperty = true → s.cur = {}) → (run names s es).1.hadValue = true → (run names s es).1.hadProperty = true → (run names s es).1.cur = {}) ∧
    (((run names s es).1.hadValue && (run names s es).1.hadProperty) = false → (run names s es).2 = [])
  | [], s => by simp [run]
  | e :: es, s => by
    have ih := run_flags names es (step names s e).1
    simp only [run]
    have hp : ∀ t : Sub, (post t).1.hadValue = t.hadValue ∧ (post t).1.hadProperty = t.hadProperty ∧
        ((post t).1.hadValue = true → (post t).1.hadProperty = true → (post t).1.cur = {}) ∧ ((t.hadValue && t.hadProperty) = false → (post t).2 = []) := by
      intro t
      unfold post
      split
      · rename_i h; simp_all
      · rename_i h; simp_all
    have key : (step names s e).1.hadValue = (s.hadValue || isValueEvent e) ∧ (step names s e).1.hadProperty = (s.hadProperty || !isValueEvent e) ∧
        ((step names s e).1.hadValue = true → (step names s e).1.hadProperty = true → (step names s e).1.cur = {}) ∧
        (((step names s e).1.hadValue && (step names s e).1.hadProperty) = false → (step names s e).2 = []) := by
      obtain ⟨t, h1, h2, h3⟩ : ∃ t : Sub, step names s e = post t ∧ t.hadValue = (s.hadValue || isValueEvent e) ∧ t.hadProperty = (s.hadProperty || !isValueEvent e) := by
        cases e with
        | value m r => exact ⟨_, rfl, by simp [isValueEvent], by simp [isValueEvent]⟩
        | property r => exact ⟨_, rfl, by simp [isValueEvent], by simp [isValueEvent]⟩
      have := hp t
      rw [h1, this.1, this.2.1, h2, h3]
      refine ⟨rfl, rfl, ?_, ?_⟩
      · rw [← h2, ← h3, ← this.1, ← this.2.1]; exact this.2.2.1
      · rw [← h2, ← h3]; exact this.2.2.2
    refine ⟨?_, ?_, ?_, ?_⟩
    · rw [ih.1, key.1, List.any_cons, Bool.or_assoc]
    · rw [ih.2.1, key.2.1, List.any_cons, Bool.or_assoc]
    · intro _; exact ih.2.2.1 key.2.2.1
    · intro h
      rw [ih.2.2.2 h, List.append_nil]
      refine key.2.2.2 ?_
      rw [ih.1, ih.2.1] at h
      cases hv : (step names s e).1.hadValue <;> cases hpp : (step names s e).1.hadProperty <;> simp_all

theorem last_or {β : Type} (about : Event → Bool) (g : Event → β) : ∀ (es : List Event) (a : Option β),
    es.foldl (fun o e => (if about e then some (g e) else none).or o) a = (((es.filter about).getLast?).map g).or a
  | [], a => by simp
  | e :: es, a => by
    rw [List.foldl_cons, last_or about g es, List.filter_cons]
    cases h : about e with
    | false => simp
    | true =>
      simp only [if_true, List.getLast?_cons]
      cases (es.filter about).getLast? <;> simp

theorem knows_field {β : Type} (π : Node → Option β) (hπ : ∀ a b, π (learn a b) = (π b).or (π a)) (tell : Event → Node) (about : Event → Bool) (g : Event → β)
    (es : List Event) (ht : ∀ e ∈ es, π (tell e) = if about e then some (g e) else none) (h0 : π {} = none) :
    π (knows (es.map tell)) = ((es.filter about).getLast?).map g := by
  have : ∀ (es : List Event) (a : Node), (∀ e ∈ es, π (tell e) = if about e then some (g e) else none) →
      π ((es.map tell).foldl learn a) = es.foldl (fun o e => (if about e then some (g e) else none).or o) (π a) := by
    intro es
    induction es with
    | nil => intro a _; rfl
    | cons e es ih =>
      intro a h
      rw [List.map_cons, List.foldl_cons, ih _ (fun x hx => h x (List.mem_cons_of_mem _ hx)), List.foldl_cons, hπ, h e List.mem_cons_self]
  unfold knows
  rw [this es {} ht, last_or, h0]
  simp

theorem bit (m i : Nat) : m &&& 2 ^ i ≠ 0 ↔ m.testBit i = true := by
  constructor
  · intro h
    refine Classical.byContradiction fun hc => h ?_
    apply Nat.eq_of_testBit_eq
    intro j
    rw [Nat.testBit_and, Nat.testBit_two_pow, Nat.zero_testBit]
    by_cases e : i = j
    · subst e; simp [hc]
    · simp [e]
  · intro h e
    have := Nat.testBit_and m (2 ^ i) i
    rw [e, h, Nat.testBit_two_pow_self] at this
    simp at this

theorem bit0 (m : Nat) : (m &&& everything) &&& DBE_VALUE ≠ 0 ↔ m.testBit 0 = true := by
  rw [Nat.and_assoc, show everything &&& DBE_VALUE = 2 ^ 0 from rfl]; exact bit m 0
theorem bit2 (m : Nat) : (m &&& everything) &&& DBE_ALARM ≠ 0 ↔ m.testBit 2 = true := by
  rw [Nat.and_assoc, show everything &&& DBE_ALARM = 2 ^ 2 from rfl]; exact bit m 2
theorem bit3 (m : Nat) : (m &&& everything) &&& DBE_PROPERTY ≠ 0 ↔ m.testBit 3 = true := by
  rw [Nat.and_assoc, show everything &&& DBE_PROPERTY = 2 ^ 3 from rfl]; exact bit m 3
theorem bit02 (m : Nat) : (m &&& everything) &&& (DBE_VALUE ||| DBE_ALARM) ≠ 0 ↔ (m.testBit 0 = true ∨ m.testBit 2 = true) := by
  rw [Nat.and_or_distrib_left, ← bit0, ← bit2]
  simp only [ne_eq, Nat.or_eq_zero_iff]
  by_cases h : m &&& everything &&& DBE_VALUE = 0 <;> simp [h]

/-- about the value or the alarm -/
def aboutEither (e : Event) : Bool := aboutValue e || aboutAlarm e

theorem told_spec (names : Nat → Str) (e : Event) (hn : (recordOf e).nsec < 2 ^ 32) :
    (told names e).value = (if aboutValue e then some (recordOf e).value else none) ∧
    (told names e).status = (if aboutAlarm e then some (pvaStatus (recordOf e).status) else none) ∧
    (told names e).severity = (if aboutAlarm e then some (recordOf e).severity else none) ∧
    (told names e).message = (if aboutAlarm e then some (alarmText names (recordOf e)) else none) ∧
    (told names e).seconds = (if aboutEither e then some ((recordOf e).sec + 631152000) else none) ∧
    (told names e).nanoseconds = (if aboutEither e then some (recordOf e).nsec else none) ∧
    (told names e).userTag = (if aboutEither e then some (recordOf e).utag else none) ∧
    (told names e).props = (if aboutProps e then some (recordOf e).props else none) := by
  have hns : ∀ r : Rec, r.nsec < 2 ^ 32 → r.nsec &&& inv32 0 = r.nsec := by
    intro r h; rw [inv32_zero, and_low]; exact Nat.mod_eq_of_lt h
  cases e with
  | property r => simp [told, RecGet.get, DBE_PROPERTY, DBE_VALUE, DBE_ALARM, aboutValue, aboutAlarm, aboutProps, aboutEither, recordOf]
  | value m r =>
    have hr := hns r hn
    cases m with
    | none =>
      simp [told, RecGet.get, getTimeAlarm, changeOf, DBE_PROPERTY, DBE_VALUE, DBE_ALARM, aboutValue, aboutAlarm, aboutProps, aboutEither, recordOf, hr, epoch]
    | some m =>
      have b0 := bit0 m; have b2 := bit2 m; have b3 := bit3 m; have b02 := bit02 m
      simp only [told, RecGet.get, getTimeAlarm, changeOf, aboutValue, aboutAlarm, aboutProps, aboutEither, recordOf]
      simp only [b0, b2, b3, b02, hr]
      rcases Bool.eq_false_or_eq_true (m.testBit 0) with h0 | h0 <;> rcases Bool.eq_false_or_eq_true (m.testBit 2) with h2 | h2 <;>
        rcases Bool.eq_false_or_eq_true (m.testBit 3) with h3 | h3 <;> simp [h0, h2, h3, epoch]

/-- Whatever events the database raises: nothing is sent before the first event of each of the two kinds; from then on, what a client knows from the updates is the value of the
record at the last event about its value, its alarm at the last about its alarm, and so on. -/
theorem C77_partial (names : Nat → Str) (es : List Event) (hn : ∀ e ∈ es, (recordOf e).nsec < 2 ^ 32) :
    ((es.any isValueEvent && es.any fun e => !isValueEvent e) = false → (run names {} es).2 = []) ∧
    ((es.any isValueEvent && es.any fun e => !isValueEvent e) = true →
      let k := knows (run names {} es).2
      k.value = (lastOf aboutValue es).map (·.value) ∧
      k.status = (lastOf aboutAlarm es).map (fun r => pvaStatus r.status) ∧ k.severity = (lastOf aboutAlarm es).map (·.severity) ∧
      k.message = (lastOf aboutAlarm es).map (alarmText names) ∧
      k.seconds = (lastOf (fun e => aboutValue e || aboutAlarm e) es).map (fun r => r.sec + 631152000) ∧
      k.nanoseconds = (lastOf (fun e => aboutValue e || aboutAlarm e) es).map (·.nsec) ∧
      k.userTag = (lastOf (fun e => aboutValue e || aboutAlarm e) es).map (·.utag) ∧
      k.props = (lastOf aboutProps es).map (·.props)) := by
  have hf := run_flags names es {}
  refine ⟨?_, ?_⟩
  · intro h
    refine hf.2.2.2 ?_
    rw [hf.1, hf.2.1]; simpa using h
  · intro h
    dsimp only
    have h1 := run_knows names es {}
    have hv : (run names {} es).1.hadValue = true := by rw [hf.1]; simp only [Bool.and_eq_true] at h; simp [h.1]
    have hp : (run names {} es).1.hadProperty = true := by rw [hf.2.1]; simp only [Bool.and_eq_true] at h; rw [h.2]; simp
    rw [hf.2.2.1 (fun h => nomatch h) hv hp, learn_empty, empty_learn] at h1
    rw [h1]
    have ht := fun e he => told_spec names e (hn e he)
    refine ⟨?_, ?_, ?_, ?_, ?_, ?_, ?_, ?_⟩
    · rw [knows_field (·.value) (fun _ _ => rfl) _ aboutValue _ es (fun e he => (ht e he).1) rfl]; simp [lastOf]; rfl
    · rw [knows_field (·.status) (fun _ _ => rfl) _ aboutAlarm _ es (fun e he => (ht e he).2.1) rfl]; simp [lastOf]; rfl
    · rw [knows_field (·.severity) (fun _ _ => rfl) _ aboutAlarm _ es (fun e he => (ht e he).2.2.1) rfl]; simp [lastOf]; rfl
    · rw [knows_field (·.message) (fun _ _ => rfl) _ aboutAlarm _ es (fun e he => (ht e he).2.2.2.1) rfl]; simp [lastOf]; rfl
    · rw [knows_field (·.seconds) (fun _ _ => rfl) _ aboutEither _ es (fun e he => (ht e he).2.2.2.2.1) rfl]; simp [lastOf]; rfl
    · rw [knows_field (·.nanoseconds) (fun _ _ => rfl) _ aboutEither _ es (fun e he => (ht e he).2.2.2.2.2.1) rfl]; simp [lastOf]; rfl
    · rw [knows_field (·.userTag) (fun _ _ => rfl) _ aboutEither _ es (fun e he => (ht e he).2.2.2.2.2.2.1) rfl]; simp [lastOf]; rfl
    · rw [knows_field (·.props) (fun _ _ => rfl) _ aboutProps _ es (fun e he => (ht e he).2.2.2.2.2.2.2) rfl]; simp [lastOf]; rfl

/-- a record changes its value, then gets an alarm; both its properties and value were sent first -/
example : let r0 : Rec := ⟨1, 0, 0, [], 10, 20, 0, 7⟩
    let r1 : Rec := ⟨2, 0, 0, [], 11, 20, 0, 7⟩
    let r2 : Rec := ⟨3, 17, 3, [], 12, 20, 0, 8⟩
    let es : List Event := [.value none r0, .property r0, .value (some 1) r1, .value (some 4) r2]
    (∀ e ∈ es, (recordOf e).nsec < 2 ^ 32) ∧ (es.any isValueEvent && es.any fun e => !isValueEvent e) = true ∧
    (run (fun _ => [0x55]) {} es).2.length = 3 ∧
    knows (run (fun _ => [0x55]) {} es).2 = ⟨some 2, some 2, some 3, some [0x55], some 631152012, some 20, some 0, some 7⟩ := by
  refine ⟨?_, by decide, by decide, by decide⟩
  intro e he
  simp only [List.mem_cons, List.not_mem_nil, or_false] at he
  rcases he with rfl | rfl | rfl | rfl <;> decide

/-- the first update sent holds everything, if the first events of the database are about everything -/
theorem C77_first (names : Nat → Str) (es : List Event) (hn : ∀ e ∈ es, (recordOf e).nsec < 2 ^ 32) (a b : Event) (ha : aboutValue a = true ∧ aboutAlarm a = true)
    (hb : aboutProps b = true) (hk : isValueEvent a = true ∧ isValueEvent b = false) (rest : List Event) (he : es = a :: b :: rest ∨ es = b :: a :: rest) :
    ∃ first more, (run names {} es).2 = first :: more ∧ first = ⟨some (recordOf a).value, some (pvaStatus (recordOf a).status), some (recordOf a).severity,
      some (alarmText names (recordOf a)), some ((recordOf a).sec + 631152000), some (recordOf a).nsec, some (recordOf a).utag, first.props⟩ ∧ first.props.isSome = true := by
  have hab : ∀ x ∈ [a, b], x ∈ es := by
    intro x hx
    rcases he with rfl | rfl
    · simp only [List.mem_cons, List.not_mem_nil, or_false] at hx; rcases hx with rfl | rfl <;> simp
    · simp only [List.mem_cons, List.not_mem_nil, or_false] at hx; rcases hx with rfl | rfl <;> simp
  have ta := told_spec names a (hn a (hab a (by simp)))
  have tb := told_spec names b (hn b (hab b (by simp)))
  have key : ∀ x y, (x = a ∧ y = b ∨ x = b ∧ y = a) → ∃ s, run names {} (x :: y :: rest) = ((run names s rest).1, learn (told names x) (told names y) :: (run names s rest).2) := by
    intro x y hxy
    have hx : step names {} x = ({ cur := told names x, hadValue := isValueEvent x, hadProperty := !isValueEvent x }, []) := by
      cases x with
      | value m r => rfl
      | property r => rfl
    have hy : ∀ s : Sub, s.hadValue = isValueEvent x → s.hadProperty = (!isValueEvent x) → (step names s y).2 = [learn s.cur (told names y)] := by
      intro s h1 h2
      have hne : isValueEvent y = !isValueEvent x := by
        rcases hxy with ⟨rfl, rfl⟩ | ⟨rfl, rfl⟩ <;> rw [hk.1, hk.2] <;> rfl
      cases y with
      | value m r =>
        have hx' : isValueEvent x = false := by simpa [isValueEvent] using hne
        rw [hx'] at h2
        simp only [step, post, h2]
        simp only [Bool.not_false, Bool.and_true, if_true]
        rw [get_learn]; rfl
      | property r =>
        have hx' : isValueEvent x = true := by simpa [isValueEvent] using hne
        rw [hx'] at h1
        simp only [step, post, h1]
        simp only [Bool.and_true, if_true]
        rw [get_learn]; rfl
    have ht := hy { cur := told names x, hadValue := isValueEvent x, hadProperty := !isValueEvent x } rfl rfl
    refine ⟨(step names { cur := told names x, hadValue := isValueEvent x, hadProperty := !isValueEvent x } y).1, ?_⟩
    simp only [run, hx, ht, List.nil_append, List.cons_append]
  have hbv : aboutValue b = false ∧ aboutAlarm b = false ∧ aboutEither b = false := by
    cases b with
    | value m r => simp [isValueEvent] at hk
    | property r => exact ⟨rfl, rfl, rfl⟩
  have hae : aboutEither a = true := by unfold aboutEither; rw [ha.1]; rfl
  simp only [ha.1, ha.2, hae, if_true] at ta
  simp only [hbv.1, hbv.2.1, hbv.2.2, hb, if_true, Bool.false_eq_true, if_false] at tb
  rcases he with rfl | rfl
  · obtain ⟨s, hs⟩ := key a b (.inl ⟨rfl, rfl⟩)
    refine ⟨_, _, by rw [hs], ?_, ?_⟩
    · simp [learn, ta, tb]
    · simp [learn, tb]
  · obtain ⟨s, hs⟩ := key b a (.inr ⟨rfl, rfl⟩)
    refine ⟨_, _, by rw [hs], ?_, ?_⟩
    · simp [learn, ta, tb]
    · simp only [learn, tb]; cases (told names a).props <;> rfl

/-- events are always subscribed, never those about properties, which have their own subscription; without the option, those about value and alarm are -/
theorem C77_dbe (o : Opt) : dbe o ≠ 0 ∧ dbe o < 8 ∧ (∀ n, o = .number n → n.toNat % 8 ≠ 0 → dbe o = n.toNat % 8) ∧ ((o = .absent ∨ o = .other) → dbe o = 5) := by
  have h7 : ∀ m : Nat, m &&& (DBE_VALUE ||| DBE_ARCHIVE ||| DBE_ALARM) = m % 8 := fun m => and_low m 3
  have hg : ∀ m : Nat, (if m % 8 = 0 then DBE_VALUE ||| DBE_ALARM else m % 8) ≠ 0 ∧ (if m % 8 = 0 then DBE_VALUE ||| DBE_ALARM else m % 8) < 8 := by
    intro m
    split
    · decide
    · omega
  unfold dbe
  dsimp only
  rw [h7]
  refine ⟨(hg _).1, (hg _).2, ?_, ?_⟩
  · intro n hn h
    subst hn
    dsimp only
    rw [if_neg h]
  · rintro (rfl | rfl) <;> rfl

/-- a text names the events -/
theorem C77_dbe_text (s : Str) (h : finds tVALUE s = true ∨ finds tARCHIVE s = true ∨ finds tALARM s = true) :
    (dbe (.text s)).testBit 0 = finds tVALUE s ∧ (dbe (.text s)).testBit 1 = finds tARCHIVE s ∧ (dbe (.text s)).testBit 2 = finds tALARM s := by
  unfold dbe
  cases h1 : finds tVALUE s <;> cases h2 : finds tARCHIVE s <;> cases h3 : finds tALARM s <;> simp_all <;> decide

/-- `finds` finds a word anywhere in a text -/
theorem C77_finds (w s : Str) : finds w s = true ↔ ∃ a b, s = a ++ w ++ b := by
  induction s with
  | nil =>
    simp only [finds, List.isEmpty_iff]
    constructor
    · rintro rfl; exact ⟨[], [], rfl⟩
    · rintro ⟨a, b, h⟩
      have := congrArg List.length h
      simp at this
      exact List.eq_nil_of_length_eq_zero (by omega)
  | cons c s ih =>
    simp only [finds, Bool.or_eq_true, ih, List.isPrefixOf_iff_prefix]
    constructor
    · rintro (⟨b, h⟩ | ⟨a, b, h⟩)
      · exact ⟨[], b, by simp [h]⟩
      · exact ⟨c :: a, b, by rw [h]; rfl⟩
    · rintro ⟨a, b, h⟩
      cases a with
      | nil => exact .inl ⟨b, by simpa using h.symm⟩
      | cons x a =>
        simp only [List.cons_append, List.cons.injEq] at h
        exact .inr ⟨a, b, h.2⟩

/-- who asks for archive events is never sent a value, but empty updates -/
theorem C77_archive (names : Nat → Str) (rs : List Rec) (r : Rec) :
    dbe (.text tARCHIVE) = DBE_ARCHIVE ∧ (run names {} (.property r :: rs.map (.value (some DBE_ARCHIVE)))).2.length = rs.length ∧
    ∀ n ∈ (run names {} (.property r :: rs.map (.value (some DBE_ARCHIVE)))).2, n.value = none ∧ n.seconds = none := by
  refine ⟨by decide, ?_⟩
  have e0 : ∀ (r : Rec) (n : Node), RecGet.get names 0 (changeOf (some DBE_ARCHIVE)) r n = n := fun _ _ => rfl
  have : ∀ (rs : List Rec) (s : Sub), s.hadProperty = true → s.cur.value = none ∧ s.cur.seconds = none →
      (run names s (rs.map (.value (some DBE_ARCHIVE)))).2.length = rs.length ∧
      ∀ n ∈ (run names s (rs.map (.value (some DBE_ARCHIVE)))).2, n.value = none ∧ n.seconds = none := by
    intro rs
    induction rs with
    | nil => intro s _ _; exact ⟨rfl, fun n h => absurd h List.not_mem_nil⟩
    | cons x rs ih =>
      intro s hp hc
      have hstep : step names s (.value (some DBE_ARCHIVE) x) = ({ s with hadValue := true, cur := {} }, [s.cur]) := by
        simp only [step, e0, post, hp, Bool.and_self, if_true]
      have := ih { s with hadValue := true, cur := {} } hp ⟨rfl, rfl⟩
      simp only [List.map_cons, run, hstep, List.length_append, List.length_cons, List.length_nil, this.1, List.mem_append, List.mem_singleton]
      refine ⟨by omega, ?_⟩
      rintro n (rfl | h)
      · exact hc
      · exact this.2 n h
  have h := this rs { cur := { props := some r.props }, hadProperty := true } rfl ⟨rfl, rfl⟩
  exact h

/-- with the tag "nsec:lsb:4" a get and a subscription tell different times of the same record -/
theorem C77_tag (names : Nat → Str) : let r : Rec := ⟨1, 0, 0, [], 10, 123456789, 99, 7⟩
    (singleGet names (nsecMask 4) r).nanoseconds = some 123456784 ∧ (singleGet names (nsecMask 4) r).userTag = some 5 ∧
    (knows (run names {} [.value none r, .property r]).2).nanoseconds = some 123456789 ∧ (knows (run names {} [.value none r, .property r]).2).userTag = some 99 :=
  ⟨by rfl, by rfl, by rfl, by rfl⟩

end Pvxs.Props.RecGet
