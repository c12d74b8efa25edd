import Verif.Spec.Conn
namespace Pvxs
open Wire Spec

variable {σ : Type} {h : Handler σ}

/-- more input -/
def push (s : Rx σ) (b : List Byte) : Rx σ := if s.isOpen then { s with rx := s.rx ++ b } else s

theorem push_closed {s : Rx σ} (hs : s.isOpen = false) (b : List Byte) : push s b = s := by simp [push, hs]
theorem push_open {s : Rx σ} (hs : s.isOpen = true) (b : List Byte) : push s b = { s with rx := s.rx ++ b } := by simp [push, hs]

theorem push_push (s : Rx σ) (a b : List Byte) : push (push s a) b = push s (a ++ b) := by
  cases hs : s.isOpen
  · simp [push, hs]
  · simp [push, hs]

theorem segment_push (s : Rx σ) (b : List Byte) (f c : Byte) (hs : s.isOpen = true) : segment h (push s b) f c = push (segment h s f c) b := by
  rw [push_open hs]
  simp only [segment]
  split
  · simp [push, Rx.close]
  · split <;> split <;> first | (split <;> simp [push, Rx.close, hs]) | simp [push, Rx.close, hs]

theorem rxStep_push {s s' : Rx σ} (b : List Byte) (e : rxStep h s = some s') : rxStep h (push s b) = some (push s' b) := by
  simp only [rxStep] at e
  cases hs : s.isOpen
  · simp [hs] at e
  · simp only [hs, Bool.not_true, Bool.false_eq_true, if_false] at e
    split at e
    · rename_i h0 h1 h2 h3 l0 l1 l2 l3 rest hrx
      have hp : (push s b).rx = h0 :: h1 :: h2 :: h3 :: l0 :: l1 :: l2 :: l3 :: (rest ++ b) := by rw [push_open hs, hrx]; rfl
      have ho : (push s b).isOpen = true := by rw [push_open hs]; exact hs
      have hc : (push s b).isClient = s.isClient := by rw [push_open hs]
      simp only [rxStep, ho, Bool.not_true, Bool.false_eq_true, if_false, hp, hc]
      split at e
      · rename_i hb
        rw [if_pos hb]
        cases e
        simp [push, Rx.close, hs]
      · rename_i hb
        rw [if_neg hb]
        split at e
        · rename_i hctl
          rw [if_pos hctl]
          cases e
          simp [push, hs]
        · rename_i hctl
          rw [if_neg hctl]
          split at e
          · simp at e
          · rename_i hlen
            rw [if_neg (by rw [List.length_append]; omega)]
            cases e
            rw [← segment_push _ _ _ _ (by simp [hs])]
            congr 1
            rw [push_open hs, push_open (by simp [hs])]
            congr 2
            · rw [List.drop_append_of_le_length (by omega)]
            · rw [List.take_append_of_le_length (by omega)]
    · simp at e

/-- rounds left -/
def measure' (s : Rx σ) : Nat := if s.isOpen then s.rx.length + 1 else 0

theorem segment_rx (s : Rx σ) (f c : Byte) : (segment h s f c).rx.length ≤ s.rx.length := by
  simp only [segment]
  split
  · simp [Rx.close]
  · split <;> split <;> first | (split <;> simp [Rx.close]) | simp

theorem measure_le_of_rx {s : Rx σ} {n : Nat} (h : s.rx.length + 1 ≤ n) : measure' s ≤ n := by
  simp only [measure']; split <;> omega

theorem rxStep_measure {s s' : Rx σ} (e : rxStep h s = some s') : measure' s' < measure' s := by
  simp only [rxStep] at e
  cases hs : s.isOpen
  · simp [hs] at e
  · simp only [hs, Bool.not_true, Bool.false_eq_true, if_false] at e
    split at e
    · rename_i h0 h1 h2 h3 l0 l1 l2 l3 rest hrx
      have hm : measure' s = rest.length + 9 := by simp [measure', hs, hrx]
      rw [hm]
      split at e
      · cases e; simp [measure', Rx.close]
      · split at e
        · cases e
          refine Nat.lt_of_le_of_lt (measure_le_of_rx (Nat.le_refl _)) ?_
          simp only
          omega
        · split at e
          · simp at e
          · cases e
            refine Nat.lt_of_le_of_lt (measure_le_of_rx (Nat.add_le_add_right (segment_rx _ _ _) 1)) ?_
            simp only [List.length_drop]
            omega
    · simp at e

/-- run the loop to its end -/
def final (h : Handler σ) (s : Rx σ) : Rx σ := rxLoop h (measure' s) s

theorem rxLoop_fuel : ∀ (n : Nat) (s : Rx σ), measure' s ≤ n → rxLoop h n s = final h s := by
  have key : ∀ (m : Nat) (s : Rx σ), measure' s ≤ m → ∀ n, measure' s ≤ n → rxLoop h n s = rxLoop h m s := by
    intro m
    induction m with
    | zero =>
      intro s hs n _
      have hst : rxStep h s = none := by
        cases he : rxStep h s with
        | none => rfl
        | some s' => have := rxStep_measure he; omega
      cases n with
      | zero => rfl
      | succ n => simp [rxLoop, hst]
    | succ m ih =>
      intro s hs n hn
      cases he : rxStep h s with
      | none => cases n <;> simp [rxLoop, he]
      | some s' =>
        have := rxStep_measure he
        cases n with
        | zero => omega
        | succ n => simp only [rxLoop, he]; exact ih s' (by omega) n (by omega)
  intro n s hn
  exact key _ s (Nat.le_refl _) n hn

theorem final_step {s s' : Rx σ} (e : rxStep h s = some s') : final h s = final h s' := by
  have h1 := rxStep_measure e
  have : final h s = rxLoop h (measure' s - 1 + 1) s := by rw [Nat.sub_add_cancel (by omega)]; rfl
  rw [this]
  simp only [rxLoop, e]
  exact rxLoop_fuel _ _ (by omega)

theorem final_stuck {s : Rx σ} (e : rxStep h s = none) : final h s = s := by
  simp only [final]
  cases measure' s <;> simp [rxLoop, e]

theorem final_none (s : Rx σ) : rxStep h (final h s) = none := by
  have : ∀ n (s : Rx σ), measure' s ≤ n → rxStep h (final h s) = none := by
    intro n
    induction n with
    | zero =>
      intro s hs
      cases he : rxStep h s with
      | none => rw [final_stuck he]; exact he
      | some s' => have := rxStep_measure he; omega
    | succ n ih =>
      intro s hs
      cases he : rxStep h s with
      | none => rw [final_stuck he]; exact he
      | some s' => rw [final_step he]; exact ih s' (by have := rxStep_measure he; omega)
  exact this _ s (Nat.le_refl _)

theorem final_push (s : Rx σ) (b : List Byte) : final h (push s b) = final h (push (final h s) b) := by
  have : ∀ n (s : Rx σ), measure' s ≤ n → final h (push s b) = final h (push (final h s) b) := by
    intro n
    induction n with
    | zero =>
      intro s hs
      cases he : rxStep h s with
      | none => rw [final_stuck he]
      | some s' => have := rxStep_measure he; omega
    | succ n ih =>
      intro s hs
      cases he : rxStep h s with
      | none => rw [final_stuck he]
      | some s' =>
        rw [final_step he, final_step (rxStep_push b he)]
        exact ih s' (by have := rxStep_measure he; omega)
  exact this _ s (Nat.le_refl _)

theorem bevRead_eq (s : Rx σ) : bevRead h s = settle (final h s) := by
  simp only [bevRead]
  rw [rxLoop_fuel _ _ (measure_le_of_rx (Nat.le_refl _))]

/-- what a stuck state looks like -/
inductive Waits (h : Handler σ) (s : Rx σ) : Prop
  | closed (hc : s.isOpen = false)
  | header (ho : s.isOpen = true) (hl : s.rx.length < 8)
  | body (h0 h1 h2 h3 l0 l1 l2 l3 : Byte) (rest : List Byte) (ho : s.isOpen = true)
      (hrx : s.rx = h0 :: h1 :: h2 :: h3 :: l0 :: l1 :: l2 :: l3 :: rest) (hb : badHeader s.isClient h0 h1 h2 = false)
      (hctl : ((h2 &&& 1) != 0) = false) (hlen : rest.length < u32 ((h2 &&& 0x80) != 0) l0 l1 l2 l3)

theorem waits_of_stuck {s : Rx σ} (e : rxStep h s = none) : Waits h s := by
  cases hs : s.isOpen
  · exact .closed hs
  · simp only [rxStep, hs, Bool.not_true, Bool.false_eq_true, if_false] at e
    split at e
    · rename_i h0 h1 h2 h3 l0 l1 l2 l3 rest hrx
      split at e
      · simp at e
      · rename_i hb
        split at e
        · simp at e
        · rename_i hctl
          split at e
          · rename_i hlen
            exact .body h0 h1 h2 h3 l0 l1 l2 l3 rest hs hrx (by simpa using hb) (by simpa using hctl) hlen
          · simp at e
    · rename_i hne
      refine .header hs ?_
      rcases hrx : s.rx with _ | ⟨a0, _ | ⟨a1, _ | ⟨a2, _ | ⟨a3, _ | ⟨a4, _ | ⟨a5, _ | ⟨a6, _ | ⟨a7, r⟩⟩⟩⟩⟩⟩⟩⟩ <;> simp
      exact absurd hrx (hne _ _ _ _ _ _ _ _ _)

theorem stuck_of_waits {s : Rx σ} (w : Waits h s) : rxStep h s = none := by
  cases w with
  | closed hc => simp [rxStep, hc]
  | header ho hl =>
    simp only [rxStep, ho, Bool.not_true, Bool.false_eq_true, if_false]
    split
    · rename_i hrx; rw [hrx] at hl; simp at hl; omega
    · rfl
  | body h0 h1 h2 h3 l0 l1 l2 l3 rest ho hrx hb hctl hlen =>
    simp only [rxStep, ho, Bool.not_true, Bool.false_eq_true, if_false, hrx, hb, hctl]
    rw [if_pos hlen]

theorem settle_body {s : Rx σ} {h0 h1 h2 h3 l0 l1 l2 l3 : Byte} {rest : List Byte} (ho : s.isOpen = true)
    (hrx : s.rx = h0 :: h1 :: h2 :: h3 :: l0 :: l1 :: l2 :: l3 :: rest) (hb : badHeader s.isClient h0 h1 h2 = false)
    (hctl : ((h2 &&& 1) != 0) = false) :
    settle s = { s with peerBE := (h2 &&& 0x80) != 0, peerVersion := h1, lowat := (8 + u32 ((h2 &&& 0x80) != 0) l0 l1 l2 l3) % 2 ^ 32 } := by
  simp only [settle, ho, Bool.not_true, Bool.false_eq_true, if_false, hrx, hb, hctl, Bool.or_false]

theorem settle_header {s : Rx σ} (ho : s.isOpen = true) (hl : s.rx.length < 8) : settle s = { s with lowat := 8 } := by
  simp only [settle, ho, Bool.not_true, Bool.false_eq_true, if_false]
  split
  · rename_i hrx; rw [hrx] at hl; simp at hl; omega
  · rfl

theorem settle_closed {s : Rx σ} (hc : s.isOpen = false) : settle s = s := by simp [settle, hc]

theorem lowat_step (s : Rx σ) (l : Nat) : rxStep h { s with lowat := l } = rxStep h s := by
  simp only [rxStep, Rx.close]

theorem lowat_settle (s : Rx σ) (l : Nat) (ho : s.isOpen = true) (hw : rxStep h s = none) : settle { s with lowat := l } = settle s := by
  cases waits_of_stuck hw with
  | closed hc => rw [hc] at ho; cases ho
  | header _ hl => rw [settle_header (s := { s with lowat := l }) ho hl, settle_header ho hl]
  | body h0 h1 h2 h3 l0 l1 l2 l3 rest _ hrx hb hctl hlen =>
    rw [settle_body (s := { s with lowat := l }) ho hrx hb hctl, settle_body ho hrx hb hctl]

/-- settling in between changes nothing -/
theorem settle_between {u : Rx σ} (w : Waits h u) (b : List Byte) :
    settle (final h (push (settle u) b)) = settle (final h (push u b)) := by
  cases w with
  | closed hc => rw [settle_closed hc]
  | header ho hl =>
    rw [settle_header ho hl, push_open (s := { u with lowat := 8 }) ho, push_open ho]
    have e1 := lowat_step (h := h) { u with rx := u.rx ++ b } 8
    cases e : rxStep h { u with rx := u.rx ++ b } with
    | none =>
      rw [final_stuck e, final_stuck (e1.trans e)]
      exact lowat_settle { u with rx := u.rx ++ b } 8 ho e
    | some s' => rw [final_step e, final_step (e1.trans e)]
  | body h0 h1 h2 h3 l0 l1 l2 l3 rest ho hrx hb hctl hlen =>
    rw [settle_body ho hrx hb hctl, push_open (by exact ho), push_open ho]
    simp only
    have hrx' : u.rx ++ b = h0 :: h1 :: h2 :: h3 :: l0 :: l1 :: l2 :: l3 :: (rest ++ b) := by rw [hrx]; rfl
    have est : ∀ (x y : Bool) (z w : Byte) (l l' : Nat), rxStep h { u with rx := u.rx ++ b, peerBE := x, peerVersion := z, lowat := l } =
        rxStep h { u with rx := u.rx ++ b, peerBE := y, peerVersion := w, lowat := l' } := by
      intro x y z w l l'
      simp only [rxStep, ho, Bool.not_true, Bool.false_eq_true, if_false, hrx', hb, hctl]
    have e1 := est ((h2 &&& 0x80) != 0) u.peerBE h1 u.peerVersion ((8 + u32 ((h2 &&& 0x80) != 0) l0 l1 l2 l3) % 2 ^ 32) u.lowat
    cases e : rxStep h { u with rx := u.rx ++ b } with
    | none =>
      rw [final_stuck e, final_stuck (e1.trans e)]
      rw [settle_body (s := { u with rx := u.rx ++ b }) ho hrx' hb hctl]
      exact settle_body (s := { u with rx := u.rx ++ b, peerBE := (h2 &&& 0x80) != 0, peerVersion := h1, lowat := (8 + u32 ((h2 &&& 0x80) != 0) l0 l1 l2 l3) % 2 ^ 32 }) ho hrx' hb hctl
    | some s' => rw [final_step e, final_step (e1.trans e)]

/-- the state between two calls of the read callback -/
def Resting (h : Handler σ) (s : Rx σ) : Prop := rxStep h s = none ∧ settle s = s

theorem stuck_settle {u : Rx σ} (w : rxStep h u = none) : rxStep h (settle u) = none := by
  cases waits_of_stuck w with
  | closed hc => rw [settle_closed hc]; exact w
  | header ho hl => rw [settle_header ho hl, lowat_step]; exact w
  | body h0 h1 h2 h3 l0 l1 l2 l3 rest ho hrx hb hctl hlen =>
    rw [settle_body ho hrx hb hctl]
    exact stuck_of_waits (.body h0 h1 h2 h3 l0 l1 l2 l3 rest ho hrx hb hctl hlen)

theorem settle_settle (u : Rx σ) (w : rxStep h u = none) : settle (settle u) = settle u := by
  cases waits_of_stuck w with
  | closed hc => rw [settle_closed hc, settle_closed hc]
  | header ho hl => rw [settle_header ho hl]; exact settle_header (s := { u with lowat := 8 }) ho hl
  | body h0 h1 h2 h3 l0 l1 l2 l3 rest ho hrx hb hctl hlen =>
    rw [settle_body ho hrx hb hctl]
    exact settle_body (s := { u with peerBE := (h2 &&& 0x80) != 0, peerVersion := h1, lowat := (8 + u32 ((h2 &&& 0x80) != 0) l0 l1 l2 l3) % 2 ^ 32 }) ho hrx hb hctl

theorem resting_bevRead (s : Rx σ) : Resting h (bevRead h s) := by
  rw [bevRead_eq]
  exact ⟨stuck_settle (final_none s), settle_settle _ (final_none s)⟩

/-- libevent's not calling makes no difference -/
theorem receive_eq {s : Rx σ} (r : Resting h s) (c : List Byte) : receive h s c = settle (final h (push s c)) := by
  obtain ⟨r1, r2⟩ := r
  cases hs : s.isOpen
  · simp only [receive, hs, Bool.not_false, if_true]
    rw [push_closed hs, final_stuck r1, r2]
  · simp only [receive, hs, Bool.not_true, Bool.false_eq_true, if_false]
    rw [push_open hs]
    split
    · rw [bevRead_eq]; simp only [hs]
    · rename_i hlow
      have hst : rxStep h { s with rx := s.rx ++ c } = none ∧ settle { s with rx := s.rx ++ c } = { s with rx := s.rx ++ c } := by
        cases waits_of_stuck r1 with
        | closed hc => rw [hc] at hs; cases hs
        | header ho hl =>
          rw [settle_header ho hl] at r2
          have : s.lowat = 8 := by rw [← r2]
          rw [this] at hlow
          have hl' : (s.rx ++ c).length < 8 := by omega
          exact ⟨stuck_of_waits (.header ho hl'), by rw [settle_header (s := { s with rx := s.rx ++ c }) ho hl']; simp only [this]⟩
        | body h0 h1 h2 h3 l0 l1 l2 l3 rest ho hrx hb hctl hlen =>
          rw [settle_body ho hrx hb hctl] at r2
          have hlo : s.lowat = (8 + u32 ((h2 &&& 0x80) != 0) l0 l1 l2 l3) % 2 ^ 32 := by rw [← r2]
          have hbe : s.peerBE = ((h2 &&& 0x80) != 0) := by rw [← r2]
          have hve : s.peerVersion = h1 := by rw [← r2]
          have hrx' : s.rx ++ c = h0 :: h1 :: h2 :: h3 :: l0 :: l1 :: l2 :: l3 :: (rest ++ c) := by rw [hrx]; rfl
          have hlen' : (rest ++ c).length < u32 ((h2 &&& 0x80) != 0) l0 l1 l2 l3 := by
            rw [hlo, hrx'] at hlow
            simp only [List.length_cons] at hlow
            have := Nat.mod_le (8 + u32 ((h2 &&& 0x80) != 0) l0 l1 l2 l3) (2 ^ 32)
            omega
          refine ⟨stuck_of_waits (.body h0 h1 h2 h3 l0 l1 l2 l3 (rest ++ c) ho hrx' hb hctl hlen'), ?_⟩
          rw [settle_body (s := { s with rx := s.rx ++ c }) ho hrx' hb hctl]
          simp only [hlo, hbe, hve]
      rw [final_stuck hst.1, hst.2]; simp only [hs]

theorem receiveAll_eq : ∀ (cs : List (List Byte)) {s : Rx σ}, Resting h s → receiveAll h s cs = settle (final h (push s cs.flatten)) := by
  intro cs
  induction cs with
  | nil =>
    intro s r
    have : push s [] = s := by cases s; simp [push]
    simp only [receiveAll, List.foldl_nil, List.flatten_nil, this]
    rw [final_stuck r.1, r.2]
  | cons c cs ih =>
    intro s r
    have hr : Resting h (receive h s c) := by
      rw [receive_eq r, ← bevRead_eq]; exact resting_bevRead _
    show receiveAll h (receive h s c) cs = _
    rw [ih hr, receive_eq r, settle_between (waits_of_stuck (final_none _)), ← final_push, push_push, List.flatten_cons]

theorem resting_new (c e : Bool) (a : σ) : Resting h (newRx c e a) := by
  have : Waits h (newRx c e a) := .header rfl (by simp [newRx])
  exact ⟨stuck_of_waits this, by rw [settle_header rfl (by simp [newRx])]; rfl⟩


/-! ### the messages -/

theorem u32_bytes4 (be : Bool) (n : Nat) (hn : n < 2 ^ 32) : ∃ a b c d : Byte, bytes4 be n = [a, b, c, d] ∧ u32 be a b c d = n := by
  have key : ((n / 2 ^ 24 % 256 * 256 + n / 2 ^ 16 % 256) * 256 + n / 2 ^ 8 % 256) * 256 + n % 256 = n := by omega
  cases be
  · exact ⟨_, _, _, _, rfl, by simpa [u32, UInt8.toNat_ofNat'] using key⟩
  · exact ⟨_, _, _, _, rfl, by simpa [u32, UInt8.toNat_ofNat'] using key⟩

theorem ctl_flags (c be : Bool) (o : Byte) :
    ((baseFlags c be ||| 1 ||| (o &&& 0x3e)) &&& 1 != 0) = true ∧ ((baseFlags c be ||| 1 ||| (o &&& 0x3e)) &&& 0x40 != 0) = c ∧
    ((baseFlags c be ||| 1 ||| (o &&& 0x3e)) &&& 0x80 != 0) = be := by
  have key : ∀ n : Fin 256, ∀ c be : Bool, ((baseFlags c be ||| 1 ||| ((UInt8.ofFin n) &&& 0x3e)) &&& 1 != 0) = true ∧ ((baseFlags c be ||| 1 ||| ((UInt8.ofFin n) &&& 0x3e)) &&& 0x40 != 0) = c ∧
    ((baseFlags c be ||| 1 ||| ((UInt8.ofFin n) &&& 0x3e)) &&& 0x80 != 0) = be := by decide +kernel
  exact key o.toFin c be

theorem app_flags (c be : Bool) (g : Seg) :
    ((baseFlags c be ||| g.bits) &&& 1 != 0) = false ∧ ((baseFlags c be ||| g.bits) &&& 0x40 != 0) = c ∧
    ((baseFlags c be ||| g.bits) &&& 0x80 != 0) = be ∧ (baseFlags c be ||| g.bits) &&& 0x30 = g.bits := by
  cases c <;> cases be <;> cases g <;> decide

/-- the receiver is where it should be -/
structure Tracks (s : Rx σ) (w : Want σ) : Prop where
  app : s.app = w.app
  be : s.sendBE = w.sendBE
  seg : match w.partly with
    | none => s.expectSeg = false ∧ s.segBuf = []
    | some (c, b) => s.expectSeg = true ∧ s.segCmd = c ∧ s.segBuf = b

theorem step_item {s : Rx σ} {w : Want σ} (ho : s.isOpen = true) (t : Tracks s w) (i : Item) (ok : i.OK) (rest : List Byte) :
    ∃ s' : Rx σ, rxStep h { s with rx := i.bytes s.isClient ++ rest } = some s' ∧ s'.isOpen = (w.step h i).2 ∧ s'.isClient = s.isClient ∧
      s'.app = (w.step h i).1.app ∧ s'.sendBE = (w.step h i).1.sendBE ∧
      ((w.step h i).2 = true → s'.rx = rest ∧ Tracks s' (w.step h i).1) := by
  obtain ⟨tapp, tbe, tseg⟩ := t
  cases i with
  | control v be o cmd len =>
    obtain ⟨hv, hl⟩ := ok
    obtain ⟨a, b, c, d, rfl⟩ : ∃ a b c d, len = [a, b, c, d] := by
      rcases len with _ | ⟨a, _ | ⟨b, _ | ⟨c, _ | ⟨d, _ | ⟨e, r⟩⟩⟩⟩⟩ <;> simp at hl
      exact ⟨a, b, c, d, rfl⟩
    obtain ⟨f1, f2, f3⟩ := ctl_flags s.isClient be o
    have hbad : badHeader s.isClient 0xca v (baseFlags s.isClient be ||| 1 ||| (o &&& 0x3e)) = false := by
      simp only [badHeader, f2]; simp [hv]
    refine ⟨_, by simp only [rxStep, ho, Bool.not_true, Bool.false_eq_true, if_false, Item.bytes, List.cons_append, List.nil_append, hbad, f1, if_true]; rfl, ?_⟩
    simp only [Want.step, f3]
    refine ⟨trivial, trivial, tapp, by rw [tbe], fun _ => ⟨trivial, ⟨tapp, by simp only [tbe], tseg⟩⟩⟩
  | app v be g cmd body =>
    obtain ⟨hv, hl⟩ := ok
    obtain ⟨a, b, c, d, h4, hlen⟩ := u32_bytes4 be body.length hl
    obtain ⟨f1, f2, f3, f4⟩ := app_flags s.isClient be g
    have hbad : badHeader s.isClient 0xca v (baseFlags s.isClient be ||| g.bits) = false := by
      simp only [badHeader, f2]; simp [hv]
    have hst : rxStep h { s with rx := (Item.app v be g cmd body).bytes s.isClient ++ rest } =
        some (segment h { s with rx := rest, lowat := 8, peerBE := be, peerVersion := v, segBuf := s.segBuf ++ body }
          (baseFlags s.isClient be ||| g.bits) cmd) := by
      simp only [rxStep, ho, Bool.not_true, Bool.false_eq_true, if_false, Item.bytes, h4, List.cons_append, List.nil_append, List.append_assoc,
        hbad, f1, f3, hlen]
      rw [if_neg (by simp)]
      simp
    refine ⟨_, hst, ?_⟩
    simp only [segment, f4]
    have k1 : (0x10 &&& 0x20 : Byte) = 0 := by decide
    have k2 : (0x20 &&& 0x20 : Byte) = 0x20 := by decide
    have k3 : (0x30 &&& 0x20 : Byte) = 0x20 := by decide
    cases hp : w.partly with
    | none =>
      rw [hp] at tseg
      obtain ⟨t1, t2⟩ := tseg
      cases g <;> simp [Seg.bits, Want.step, Want.act, hp, t1, t2, Rx.close, tapp, tbe, ho, k1, k2, k3]
      · cases hh : (h w.app ⟨cmd, be, v, body⟩).2 <;> simp
        constructor <;> simp
      · constructor <;> simp
    | some cb =>
      obtain ⟨pc, pb⟩ := cb
      rw [hp] at tseg
      obtain ⟨t1, t2, t3⟩ := tseg
      cases g <;> simp [Seg.bits, Want.step, Want.act, hp, t1, t2, t3, Rx.close, tapp, tbe, ho, k1, k2, k3]
      · by_cases hc : pc = cmd
        · subst hc
          simp
          constructor <;> simp
        · have : ¬ cmd = pc := fun e => hc e.symm
          simp [hc, this, tapp, tbe]
      · by_cases hc : pc = cmd
        · subst hc
          cases hh : (h w.app ⟨pc, be, v, pb ++ body⟩).2 <;> simp [hh]
          constructor <;> simp
        · have : ¬ cmd = pc := fun e => hc e.symm
          simp [hc, this, tapp, tbe]

theorem run_items : ∀ (items : List Item) {s : Rx σ} {w : Want σ}, s.isOpen = true → Tracks s w → (∀ i ∈ items, i.OK) → ∀ tail : List Byte,
    ∃ s' : Rx σ, final h { s with rx := stream s.isClient items ++ tail } = final h s' ∧ s'.isOpen = (w.run h items).2 ∧ s'.isClient = s.isClient ∧
      s'.app = (w.run h items).1.app ∧ s'.sendBE = (w.run h items).1.sendBE ∧
      ((w.run h items).2 = true → s'.rx = tail ∧ Tracks s' (w.run h items).1) := by
  intro items
  induction items with
  | nil => intro s w ho t _ tail; exact ⟨_, rfl, ho, rfl, t.app, t.be, fun _ => ⟨rfl, ⟨t.app, t.be, t.seg⟩⟩⟩
  | cons i is ih =>
    intro s w ho t hok tail
    obtain ⟨s1, e1, o1, c1, a1, b1, r1⟩ := step_item (h := h) ho t i (hok i (List.mem_cons_self ..)) (stream s.isClient is ++ tail)
    have e0 : stream s.isClient (i :: is) ++ tail = i.bytes s.isClient ++ (stream s.isClient is ++ tail) := by
      simp [stream, List.append_assoc]
    rw [e0, final_step e1]
    simp only [Want.run]
    cases hr : (w.step h i).2
    · simp only [Bool.false_eq_true, if_false]
      exact ⟨s1, rfl, o1, c1, a1, b1, fun hh => by rw [hr] at hh; cases hh⟩
    · simp only [if_true]
      obtain ⟨rx1, t1⟩ := r1 hr
      obtain ⟨s2, e2, r2⟩ := ih (s := s1) (by rw [o1, hr]) t1 (fun j hj => hok j (List.mem_cons_of_mem _ hj)) tail
      refine ⟨s2, ?_, by rw [← c1]; exact r2⟩
      rw [← e2, c1]
      have : s1 = { s1 with isClient := s.isClient, rx := stream s.isClient is ++ tail } := by rw [← rx1, ← c1]
      exact congrArg (final h) this

/-- an incomplete message is waited for -/
theorem partial_waits {s : Rx σ} (ho : s.isOpen = true) (i : Item) (ok : i.OK) (n : Nat) (hn : n < (i.bytes s.isClient).length)
    (hrx : s.rx = (i.bytes s.isClient).take n) : rxStep h s = none := by
  by_cases h8 : n < 8
  · exact stuck_of_waits (.header ho (by rw [hrx, List.length_take]; omega))
  cases i with
  | control v be o cmd len =>
    obtain ⟨hv, hl⟩ := ok
    simp [Item.bytes, hl] at hn
    omega
  | app v be g cmd body =>
    obtain ⟨hv, hl⟩ := ok
    obtain ⟨a, b, c, d, h4, hlen⟩ := u32_bytes4 be body.length hl
    obtain ⟨f1, f2, f3, f4⟩ := app_flags s.isClient be g
    have hbad : badHeader s.isClient 0xca v (baseFlags s.isClient be ||| g.bits) = false := by
      simp only [badHeader, f2]; simp [hv]
    obtain ⟨k, rfl⟩ : ∃ k, n = k + 8 := ⟨n - 8, by omega⟩
    simp only [Item.bytes, h4, List.cons_append, List.nil_append, List.take_succ_cons] at hrx
    simp only [Item.bytes, h4, List.cons_append, List.nil_append, List.length_cons] at hn
    refine stuck_of_waits (.body _ _ _ _ _ _ _ _ _ ho hrx hbad f1 ?_)
    rw [f3, hlen, List.length_take]
    omega

theorem settle_keeps (s : Rx σ) : (settle s).isOpen = s.isOpen ∧ (settle s).app = s.app ∧ (settle s).sendBE = s.sendBE := by
  simp only [settle]
  split
  · exact ⟨rfl, rfl, rfl⟩
  · split
    · split <;> exact ⟨rfl, rfl, rfl⟩
    · exact ⟨rfl, rfl, rfl⟩

theorem close_final {s : Rx σ} (hc : s.isOpen = false) : final h s = s := final_stuck (stuck_of_waits (.closed hc))

end Pvxs
