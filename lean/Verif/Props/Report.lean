import Verif.Spec.Report
/-
C119: the byte counters of reports.
-/
namespace Pvxs.Props.Report
open Pvxs.Report Pvxs.Spec.Report

theorem run_cons (s : Conn) (e : Ev) (es : List Ev) : run s (e :: es) = run (step s e) es := rfl

theorem handled_tx (s : Conn) (c : Option Nat) : (handled s c).tx = s.tx := by cases c <;> rfl
theorem handled_rx (s : Conn) (c : Option Nat) : (handled s c).rx = s.rx := by cases c <;> rfl

theorem toldTotal_other (f : Told → Nat) (s : Conn) (e : Ev) (es : List Ev) (h : e ≠ .report true) :
    toldTotal f s (e :: es) = toldTotal f (step s e) es := by
  cases e with
  | report r => cases r with
    | true => exact absurd rfl h
    | false => rfl
  | _ => rfl

theorem tx_run (es : List Ev) (h : es.all oneConn = true) : ∀ s : Conn,
    toldTotal (·.tx) s es + (run s es).tx = s.tx + sum sent es := by
  induction es with
  | nil => intro s; simp [toldTotal, run, sum]
  | cons e es ih =>
    simp only [List.all_cons, Bool.and_eq_true] at h
    intro s
    have := ih h.2 (step s e)
    rw [run_cons]
    have hs : sum sent (e :: es) = sent e + sum sent es := by simp [sum]
    by_cases hr : e = .report true
    · subst hr
      have h1 : (step s (.report true)).tx = 0 := rfl
      simp only [toldTotal, told, hs, sent]
      omega
    · rw [toldTotal_other _ _ _ _ hr, hs]
      have h1 : (step s e).tx = s.tx + sent e := by
        cases e with
        | send n c => cases c <;> rfl
        | recv n last c => cases last <;> simp [step, sent, handled_tx]
        | report r => cases r with
          | true => exact absurd rfl hr
          | false => rfl
        | again => simp [oneConn] at h
        | _ => rfl
      omega

theorem rx_run (es : List Ev) (h : es.all oneConn = true) (hf : es.all fits = true) : ∀ s : Conn,
    toldTotal (·.rx) s es + (run s es).rx = s.rx + sum received es := by
  induction es with
  | nil => intro s; simp [toldTotal, run, sum]
  | cons e es ih =>
    simp only [List.all_cons, Bool.and_eq_true] at h hf
    intro s
    have := ih h.2 hf.2 (step s e)
    rw [run_cons]
    have hs : sum received (e :: es) = received e + sum received es := by simp [sum]
    by_cases hr : e = .report true
    · subst hr
      have h1 : (step s (.report true)).rx = 0 := rfl
      simp only [toldTotal, told, hs, received]
      omega
    · rw [toldTotal_other _ _ _ _ hr, hs]
      have h1 : (step s e).rx = s.rx + received e := by
        cases e with
        | send n c => cases c <;> rfl
        | recv n last c =>
          have : 8 + n < 2 ^ 32 := by simpa [fits] using hf.1
          have h8 : rxSize n = 8 + n := Nat.mod_eq_of_lt this
          cases last <;> simp [step, received, handled_rx, h8]
        | report r => cases r with
          | true => exact absurd rfl hr
          | false => rfl
        | again => simp [oneConn] at h
        | _ => rfl
      omega

/-! ### sums over the channels -/

def sumTx (l : List Chan) : Nat := (l.map (·.tx)).sum
def sumRx (l : List Chan) : Nat := (l.map (·.rx)).sum

theorem bump_tx_le (c n : Nat) (l : List Chan) : sumTx (bump c (fun x => { x with tx := x.tx + n }) l) ≤ sumTx l + n := by
  induction l with
  | nil => simp [bump, sumTx]
  | cons x l ih =>
    simp only [sumTx, bump] at ih ⊢
    split
    · simp only [List.map_cons, List.sum_cons]; omega
    · simp only [List.map_cons, List.sum_cons]; omega

theorem bump_rx_le (c n : Nat) (l : List Chan) : sumRx (bump c (fun x => { x with rx := x.rx + n }) l) ≤ sumRx l + n := by
  induction l with
  | nil => simp [bump, sumRx]
  | cons x l ih =>
    simp only [sumRx, bump] at ih ⊢
    split
    · simp only [List.map_cons, List.sum_cons]; omega
    · simp only [List.map_cons, List.sum_cons]; omega

theorem bump_same (c : Nat) (f : Chan → Chan) (g : Chan → Nat) (h : ∀ x, g (f x) = g x) (l : List Chan) : ((bump c f l).map g).sum = (l.map g).sum := by
  induction l with
  | nil => rfl
  | cons x l ih => simp only [bump]; split <;> simp_all

theorem bump_listed (c : Nat) (f : Chan → Chan) (h : ∀ x, x.listed = true → (f x).listed = true) (l : List Chan) (hl : ∀ x ∈ l, x.listed = true) :
    ∀ x ∈ bump c f l, x.listed = true := by
  induction l with
  | nil => simp [bump]
  | cons x l ih =>
    simp only [bump]
    split
    · intro y hy
      simp only [List.mem_cons] at hy
      rcases hy with hy | hy
      · rw [hy]; exact h x (hl x (by simp))
      · exact hl y (by simp [hy])
    · intro y hy
      simp only [List.mem_cons] at hy
      rcases hy with hy | hy
      · rw [hy]; exact hl x (by simp)
      · exact ih (fun z hz => hl z (by simp [hz])) y hy

theorem filter_sum_le (p : Chan → Bool) (g : Chan → Nat) (l : List Chan) : ((l.filter p).map g).sum ≤ (l.map g).sum := by
  induction l with
  | nil => simp
  | cons x l ih => simp only [List.filter_cons]; split <;> simp only [List.map_cons, List.sum_cons] <;> omega

theorem zero_sum (g : Chan → Nat) (hg : ∀ i b, g { id := i, listed := b, tx := 0, rx := 0 } = 0) (l : List Chan) (hl : ∀ x ∈ l, x.listed = true) :
    ((l.map fun x => if x.listed then { x with tx := 0, rx := 0 } else x).map g).sum = 0 := by
  induction l with
  | nil => rfl
  | cons x l ih =>
    have h1 := hl x (by simp)
    have h2 := ih fun y hy => hl y (by simp [hy])
    simp only [List.map_cons, List.sum_cons, h1, if_true, hg]
    simpa using h2

def AllListed (s : Conn) : Prop := ∀ x ∈ s.chans, x.listed = true

theorem listed_step {s : Conn} (h : AllListed s) (e : Ev) (he : ofServer e = true) : AllListed (step s e) := by
  cases e with
  | send n c => cases c with
    | none => exact h
    | some c => exact bump_listed c (fun x => { x with tx := x.tx + (8 + n) }) (fun x hx => hx) s.chans h
  | control => exact h
  | recv n last c =>
    cases last <;> cases c
    · exact h
    · exact h
    · exact h
    · exact bump_listed _ (fun x => { x with rx := x.rx + (8 + (s.seg + n)) }) (fun x hx => hx) s.chans h
  | opened c =>
    intro x hx
    simp only [step, List.mem_append, List.mem_singleton] at hx
    rcases hx with hx | hx
    · exact h x hx
    · rw [hx]
  | asked c => simp [ofServer] at he
  | created c => simp [ofServer] at he
  | closed c => intro x hx; simp only [step, List.mem_filter] at hx; exact h x hx.1
  | again => simp [ofServer] at he
  | report r => cases r with
    | false => exact h
    | true =>
      intro x hx
      simp only [step, zero, if_true, List.mem_map] at hx
      obtain ⟨y, hy, hx⟩ := hx
      rw [if_pos (h y hy)] at hx
      rw [← hx]; exact h y hy

theorem tx_le_step {s : Conn} (hl : AllListed s) (h : sumTx s.chans ≤ s.tx) (e : Ev) (he : ofServer e = true) : sumTx (step s e).chans ≤ (step s e).tx := by
  cases e with
  | send n c => cases c with
    | none => simp only [step]; omega
    | some c => have := bump_tx_le c (8 + n) s.chans; simp only [step]; omega
  | control => exact h
  | recv n last c =>
    cases last <;> cases c
    · exact h
    · exact h
    · exact h
    · simp only [step, handled, if_true]
      have := bump_same ‹Nat› (fun x => { x with rx := x.rx + (8 + (s.seg + n)) }) (·.tx) (fun _ => rfl) s.chans
      unfold sumTx at h ⊢
      rw [this]; exact h
  | opened c => simp only [step, sumTx, List.map_append, List.sum_append] at h ⊢; simpa using h
  | asked c => simp [ofServer] at he
  | created c => simp [ofServer] at he
  | closed c => exact Nat.le_trans (filter_sum_le _ _ _) h
  | again => simp [ofServer] at he
  | report r => cases r with
    | false => exact h
    | true =>
      have := zero_sum (·.tx) (fun _ _ => rfl) s.chans hl
      simp only [step, zero, if_true, sumTx]; omega

theorem rx_le_step {s : Conn} (hl : AllListed s) (h : sumRx s.chans + s.seg ≤ s.rx) (e : Ev) (he : ofServer e = true) (hf : fits e = true)
    (hz : e = .report true → s.seg = 0) : sumRx (step s e).chans + (step s e).seg ≤ (step s e).rx := by
  cases e with
  | send n c => cases c with
    | none => exact h
    | some c =>
      simp only [step]
      have := bump_same c (fun x => { x with tx := x.tx + (8 + n) }) (·.rx) (fun _ => rfl) s.chans
      unfold sumRx at h ⊢
      rw [this]; exact h
  | control => simp only [step]; omega
  | recv n last c =>
    have : 8 + n < 2 ^ 32 := by simpa [fits] using hf
    have h8 : rxSize n = 8 + n := Nat.mod_eq_of_lt this
    cases last
    · simp only [step, Bool.false_eq_true, if_false, h8]; omega
    · cases c with
      | none => simp only [step, handled, if_true, h8]; omega
      | some c =>
        have := bump_rx_le c (8 + (s.seg + n)) s.chans
        simp only [step, handled, if_true, h8]; omega
  | opened c => simp only [step, sumRx, List.map_append, List.sum_append] at h ⊢; simpa using h
  | asked c => simp [ofServer] at he
  | created c => simp [ofServer] at he
  | closed c => have := filter_sum_le (·.id ≠ c) (·.rx) s.chans; simp only [step, sumRx] at h ⊢; omega
  | again => simp [ofServer] at he
  | report r => cases r with
    | false => exact h
    | true =>
      have := zero_sum (·.rx) (fun _ _ => rfl) s.chans hl
      have h0 := hz rfl
      simp only [step, zero, if_true, sumRx]; omega

theorem tx_le_run (es : List Ev) : ∀ s : Conn, AllListed s → sumTx s.chans ≤ s.tx → es.all ofServer = true → sumTx (run s es).chans ≤ (run s es).tx := by
  induction es with
  | nil => intro s _ h _; exact h
  | cons e es ih =>
    intro s hl h he
    simp only [List.all_cons, Bool.and_eq_true] at he
    exact ih _ (listed_step hl e he.1) (tx_le_step hl h e he.1) he.2

theorem rx_le_run (es : List Ev) : ∀ s : Conn, AllListed s → sumRx s.chans + s.seg ≤ s.rx → es.all ofServer = true → es.all fits = true →
    calm s.seg es = true → sumRx (run s es).chans + (run s es).seg ≤ (run s es).rx := by
  induction es with
  | nil => intro s _ h _ _ _; exact h
  | cons e es ih =>
    intro s hl h he hf hc
    simp only [List.all_cons, Bool.and_eq_true] at he hf
    have hz : e = .report true → s.seg = 0 := by
      rintro rfl; simp only [calm, Bool.and_eq_true, decide_eq_true_eq] at hc; exact hc.1
    refine ih _ (listed_step hl e he.1) (rx_le_step hl h e he.1 hf.1 hz) he.2 hf.2 ?_
    cases e with
    | send n c => cases c <;> exact hc
    | recv n last c =>
      simp only [calm] at hc
      cases last <;> cases c <;> exact hc
    | report r => cases r with
      | false => exact hc
      | true => simp only [calm, Bool.and_eq_true] at hc; exact hc.2
    | again => simp [ofServer] at he
    | _ => exact hc

/-! ### Theorems -/

/-- What the reports say was sent on a connection, in total, is what was sent. -/
theorem C119_tx (es : List Ev) (h : es.all oneConn = true) : toldTotal (·.tx) {} es + (told (run {} es)).tx = sum sent es := by
  have := tx_run es h {}
  simpa [told] using this

/-- What they say was received is what was received, unless a message is larger than 2^32 - 9. -/
theorem C119_rx_partial (es : List Ev) (h : es.all oneConn = true) (hf : es.all fits = true) :
    toldTotal (·.rx) {} es + (told (run {} es)).rx = sum received es := by
  have := rx_run es h hf {}
  simpa [told] using this

/-- a channel, some messages in several segments, and a reset at the wrong time -/
def busy : List Ev := [.send 20 none, .control, .opened 5, .recv 100 true (some 5), .send 30 (some 5), .report true, .opened 6, .recv 10 false none, .recv 40 false none,
  .recv 2 true (some 6), .send 1 (some 6), .report false]

example : busy.all oneConn = true ∧ busy.all fits = true ∧ busy.all ofServer = true ∧ calm 0 busy = true ∧
    told (run {} busy) = { tx := 9, rx := 76, chans := [(5, 0, 0), (6, 9, 60)] } ∧ sum sent busy = 75 ∧ toldTotal (·.tx) {} busy = 66 ∧
    sum received busy = 192 := ⟨rfl, rfl, rfl, rfl, rfl, rfl, rfl, rfl⟩

/-- A larger one is not counted as such: the sum is one of 32 bit numbers. -/
theorem C119_rx_wraps : (told (run {} [.recv (2 ^ 32 - 8) true none])).rx = 0 ∧ sum received [.recv (2 ^ 32 - 8) true none] = 2 ^ 32 := ⟨by decide, by decide⟩

/-- Server: the channels in a report have sent no more than their connection, whenever the counters were reset. -/
theorem C119_channels_tx (es : List Ev) (h : es.all ofServer = true) :
    ((told (run {} es)).chans.map (·.2.1)).sum ≤ (told (run {} es)).tx := by
  have h1 := tx_le_run es {} (by intro x hx; cases hx) (by simp [sumTx]) h
  have h2 := filter_sum_le (·.listed) (·.tx) (run {} es).chans
  simp only [told, List.map_map]
  unfold sumTx at h1
  exact Nat.le_trans h2 h1

/-- Server: nor received more, unless the counters were reset in the middle of a message. -/
theorem C119_channels_rx_partial (es : List Ev) (h : es.all ofServer = true) (hf : es.all fits = true) (hc : calm 0 es = true) :
    ((told (run {} es)).chans.map (·.2.2)).sum ≤ (told (run {} es)).rx := by
  have h1 := rx_le_run es {} (by intro x hx; cases hx) (by simp [sumRx]) h hf hc
  have h2 := filter_sum_le (·.listed) (·.rx) (run {} es).chans
  simp only [told, List.map_map]
  unfold sumRx at h1
  exact Nat.le_trans h2 (by omega)

/-- In the middle of a message: the channel has received more than its connection. -/
theorem C119_channels_rx_false : told (run {} [.opened 5, .recv 100 false none, .report true, .recv 2 true (some 5)]) =
    { tx := 0, rx := 10, chans := [(5, 0, 110)] } := rfl

/-- Client: a channel which was asked for before the counters were reset and created after has sent more than its connection. -/
theorem C119_client_creating : told (run {} [.asked 5, .send 12 (some 5), .report true, .recv 9 true (some 5), .created 5]) =
    { tx := 0, rx := 17, chans := [(5, 20, 17)] } := rfl

/-- Client: a channel takes its counters along to the next connection. -/
theorem C119_client_again : told (run {} [.asked 5, .send 12 (some 5), .recv 9 true (some 5), .created 5, .send 1000 (some 5), .again,
    .send 12 (some 5), .recv 9 true (some 5), .created 5]) = { tx := 20, rx := 17, chans := [(5, 1048, 34)] } := rfl

/-- A report without reset has no effect. -/
theorem C119_read (es es' : List Ev) : run {} (es ++ .report false :: es') = run {} (es ++ es') := by
  simp [run, step]

end Pvxs.Props.Report
