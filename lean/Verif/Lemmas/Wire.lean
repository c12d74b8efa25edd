import Verif.Model.Wire
/-! Helper lemmas about the primitive codec (not property statements). -/
namespace Pvxs.Wire

/-- the encoder `e` appends exactly `bs` to any growable buffer in good state with byte order `be` -/
def Emits (be : Bool) (e : Out → Out) (bs : List Byte) : Prop :=
  ∀ o : Out, o.be = be → o.err = false → o.room = none → e o = { o with data := o.data ++ bs }

/-- the decoder `d` consumes exactly `bs` and yields `a`, whatever follows -/
def Parses (be : Bool) (d : Dec α) (bs : List Byte) (a : α) : Prop :=
  ∀ rest, d ⟨be, false, bs ++ rest⟩ = (a, ⟨be, false, rest⟩)

/-- structural safety of a decoder -/
structure Good (d : Dec α) : Prop where
  suffix : ∀ i, (d i).2.rest <:+ i.rest
  sticky : ∀ i, i.err = true → (d i).2 = i
  be : ∀ i, (d i).2.be = i.be
  loc : ∀ be u r a, d ⟨be, false, u ++ r⟩ = (a, ⟨be, false, r⟩) → ∀ r', d ⟨be, false, u ++ r'⟩ = (a, ⟨be, false, r'⟩)

theorem Good.err_false {d : Dec α} (g : Good d) (i : In) (h : (d i).2.err = false) : i.err = false := by
  cases hi : i.err with
  | false => rfl
  | true => rw [g.sticky i hi] at h; rw [hi] at h; cases h

theorem Good.err_true {d : Dec α} (g : Good d) (i : In) (h : i.err = true) : (d i).2.err = true := by
  rw [g.sticky i h]; exact h

/-- a successful run, in the form used by `loc` -/
theorem Good.split {d : Dec α} (g : Good d) (i : In) (h : (d i).2.err = false) :
    ∃ u, i = ⟨i.be, false, u ++ (d i).2.rest⟩ ∧
      d ⟨i.be, false, u ++ (d i).2.rest⟩ = ((d i).1, ⟨i.be, false, (d i).2.rest⟩) := by
  obtain ⟨u, hu⟩ := g.suffix i
  have hi := g.err_false i h
  have e : i = ⟨i.be, false, u ++ (d i).2.rest⟩ := by
    rw [hu, ← hi]
  refine ⟨u, e, ?_⟩
  rw [← e]
  have hb := g.be i
  cases hx : (d i).2 with
  | mk b er r => rw [hx] at hb h; simp only at hb h; rw [← hb, ← h, ← hx]

theorem Good.mono {d : Dec α} (g : Good d) (i : In) (q : List Byte) (h : (d i).2.err = false) :
    d { i with rest := i.rest ++ q } = ((d i).1, { (d i).2 with rest := (d i).2.rest ++ q }) := by
  obtain ⟨u, e, hd⟩ := g.split i h
  have h2 := g.loc _ _ _ _ hd ((d i).2.rest ++ q)
  have hb := g.be i
  have e1 : ({ i with rest := i.rest ++ q } : In) = ⟨i.be, false, u ++ ((d i).2.rest ++ q)⟩ := by
    have h3 := congrArg In.err e
    have h4 := congrArg In.rest e
    simp only at h3 h4
    rw [h3, ← List.append_assoc, ← h4]
  rw [e1, h2]
  show _ = ((d i).1, (⟨(d i).2.be, (d i).2.err, (d i).2.rest ++ q⟩ : In))
  rw [hb, h]

theorem Good.pure (a : α) : Good (Pure.pure a : Dec α) where
  suffix _ := List.suffix_refl _
  sticky _ _ := rfl
  be _ := rfl
  loc be u r a h r' := by
    simp only [Dec.pure_apply, Prod.mk.injEq, In.mk.injEq, true_and] at h
    have : u = [] := by simpa using h.2
    simp [this, h.1]

theorem Good.bind {d : Dec α} {f : α → Dec β} (gd : Good d) (gf : ∀ a, Good (f a)) : Good (d >>= f) where
  suffix i := List.IsSuffix.trans ((gf _).suffix _) (gd.suffix i)
  sticky i h := by
    have h1 := gd.sticky i h
    simp only [Dec.bind_apply]
    rw [h1]; exact (gf _).sticky i h
  be i := by simp only [Dec.bind_apply]; rw [(gf _).be, gd.be]
  loc be u r b h r' := by
    simp only [Dec.bind_apply] at h ⊢
    have h1 : (d ⟨be, false, u ++ r⟩).2.err = false := (gf _).err_false _ (by rw [h])
    obtain ⟨u1, e1, hd1⟩ := gd.split _ h1
    generalize hx : d ⟨be, false, u ++ r⟩ = x at *
    obtain ⟨a, i1⟩ := x
    simp only at *
    have h2 : (f a i1).2.err = false := by rw [h]
    obtain ⟨u2, e2, hd2⟩ := (gf a).split _ h2
    rw [h] at e2 hd2
    simp only [In.mk.injEq, true_and] at e1
    have hr : i1.rest = u2 ++ r := congrArg In.rest e2
    have hu : u = u1 ++ u2 := by
      have := e1
      rw [hr, ← List.append_assoc] at this
      exact List.append_cancel_right this
    have hb : i1.be = be := by
      have := gd.be ⟨be, false, u ++ r⟩
      rw [hx] at this; exact this
    rw [hb] at hd2
    have k1 := gd.loc be u1 _ _ hd1 (u2 ++ r')
    have k2 := (gf a).loc be u2 _ _ hd2 r'
    rw [hu, List.append_assoc, k1]
    exact k2

theorem Good.bind_err {d : Dec α} {f : α → Dec β} (gf : ∀ a, Good (f a)) {i : In} (h : (d i).2.err = true) :
    ((d >>= f) i).2.err = true := (gf _).err_true _ h

theorem Good.ite {c : Prop} [Decidable c] {d e : Dec α} (gd : Good d) (ge : Good e) :
    Good (if c then d else e) := by split <;> assumption

/-- pointwise form of `Good.ite` -/
theorem Good.ite' {c : Prop} [Decidable c] {d e : Dec α} (gd : Good d) (ge : Good e) :
    Good (fun i => if c then d i else e i : Dec α) := by
  by_cases h : c
  · simpa [h] using gd
  · simpa [h] using ge

/-- a decoder which faults, whatever it returns -/
theorem Good.faultWith (a : α) : Good (fun i => (a, i.fault) : Dec α) where
  suffix _ := List.suffix_refl _
  sticky i h := by cases i; simp_all [In.fault]
  be _ := rfl
  loc be u r b h r' := by simp [In.fault] at h

theorem ensure_false_fault (i : In) (n : Nat) (h : i.err = true) : i.ensure n = false := by
  simp [In.ensure, h]

/-- the shape "if(!buf.ensure(n)) fault; else ..." where "..." would itself fault without those n bytes -/
theorem Good.guard {d : Dec α} (n : Nat) (dflt : α) (g : Good d)
    (hn : ∀ i, i.ensure n = false → (d i).2.err = true) :
    Good (fun i => if !i.ensure n then (dflt, i.fault) else d i : Dec α) where
  suffix i := by
    split
    · exact List.suffix_refl _
    · exact g.suffix i
  sticky i h := by
    have : i.ensure n = false := by simp [In.ensure, h]
    cases i; simp_all [In.fault]
  be i := by
    split
    · rfl
    · exact g.be i
  loc be u r b h r' := by
    by_cases hc : In.ensure ⟨be, false, u ++ r⟩ n = true
    · simp only [hc, Bool.not_true, Bool.false_eq_true, ↓reduceIte] at h
      have h2 := g.loc be u r b h r'
      have h3 : In.ensure ⟨be, false, u ++ r'⟩ n = true := by
        cases h4 : In.ensure ⟨be, false, u ++ r'⟩ n with
        | true => rfl
        | false => have := hn _ h4; rw [h2] at this; cases this
      simp only [h3, Bool.not_true, Bool.false_eq_true, ↓reduceIte]
      exact h2
    · simp [hc, In.fault] at h

theorem Good.guardBind {d : Dec α} {f : α → Dec β} (n : Nat) (dflt : β) (gd : Good d)
    (hn : ∀ i, i.ensure n = false → (d i).2.err = true) (gf : ∀ a, Good (f a)) :
    Good (fun i => if !i.ensure n then (dflt, i.fault) else (d >>= f) i : Dec β) :=
  Good.guard n dflt (Good.bind gd gf) fun i h => Good.bind_err gf (hn i h)

/-- the shape "if(!buf.ensure(n)) fault; else consume exactly n bytes" -/
theorem Good.take (n : Nat) (f : Bool → List Byte → α) (dflt : α) :
    Good (fun i => if !i.ensure n then (dflt, i.fault)
      else (f i.be (i.rest.take n), { i with rest := i.rest.drop n }) : Dec α) where
  suffix i := by
    split
    · exact List.suffix_refl _
    · exact List.drop_suffix _ _
  sticky i h := by
    cases i; simp_all [In.fault, In.ensure]
  be i := by split <;> rfl
  loc be u r b h r' := by
    dsimp only at h ⊢
    by_cases hc : n ≤ (u ++ r).length
    · have hc1 : In.ensure ⟨be, false, u ++ r⟩ n = true := by simpa [In.ensure] using hc
      simp only [hc1, Bool.not_true, Bool.false_eq_true, ↓reduceIte, Prod.mk.injEq, In.mk.injEq, true_and] at h
      have hl : u.length = n := by
        have := congrArg List.length h.2
        simp only [List.length_drop, List.length_append] at this hc
        omega
      have hc2 : In.ensure ⟨be, false, u ++ r'⟩ n = true := by simp [In.ensure]; omega
      have e1 : List.take n (u ++ r) = u := by simp [← hl]
      have e2 : List.take n (u ++ r') = u := by simp [← hl]
      have e3 : List.drop n (u ++ r') = r' := by simp [← hl]
      simp only [hc2, e2, e3, Bool.not_true, Bool.false_eq_true, ↓reduceIte, ← h.1, e1]
    · have hc1 : In.ensure ⟨be, false, u ++ r⟩ n = false := by
        simp only [In.ensure, Bool.not_false, Bool.true_and, decide_eq_false_iff_not]; exact hc
      simp [hc1, In.fault] at h

/-- stop as soon as the buffer has faulted -/
theorem Good.stop {d : Dec α} (a : α) (g : Good d) :
    Good (fun i => if i.err then (a, i) else d i : Dec α) where
  suffix i := by
    split
    · exact List.suffix_refl _
    · exact g.suffix i
  sticky i h := by simp [h]
  be i := by
    split
    · rfl
    · exact g.be i
  loc be u r b h r' := by
    simp only [Bool.false_eq_true, ↓reduceIte] at h ⊢
    exact g.loc be u r b h r'

theorem Good.congr {d e : Dec α} (h : ∀ i, d i = e i) (g : Good d) : Good e := by
  have : d = e := funext h
  rwa [← this]

/-! integers -/

theorem leBytes_length (n v : Nat) : (leBytes n v).length = n := by
  induction n generalizing v with
  | zero => rfl
  | succ n ih => simp [leBytes, ih]

theorem leVal_leBytes (n v : Nat) : leVal (leBytes n v) = v % 256 ^ n := by
  induction n generalizing v with
  | zero => simp [leBytes, leVal, Nat.mod_one]
  | succ n ih =>
    simp only [leBytes, leVal, ih]
    have : (UInt8.ofNat (v % 256)).toNat = v % 256 := by
      simp
    rw [this, Nat.pow_succ, Nat.mul_comm (256^n) 256, Nat.mod_mul]

theorem leVal_lt (bs : List Byte) : leVal bs < 256 ^ bs.length := by
  induction bs with
  | nil => simp [leVal]
  | cons b bs ih =>
    simp only [leVal, List.length_cons, Nat.pow_succ]
    have := b.toNat_lt
    omega

theorem leBytes_leVal (bs : List Byte) : leBytes bs.length (leVal bs) = bs := by
  induction bs with
  | nil => rfl
  | cons b bs ih =>
    simp only [leVal, List.length_cons, leBytes]
    have hb := b.toNat_lt
    rw [show (b.toNat + 256 * leVal bs) % 256 = b.toNat by omega,
        show (b.toNat + 256 * leVal bs) / 256 = leVal bs by omega, ih]
    simp

theorem wireBytes_length (be : Bool) (n v : Nat) : (wireBytes be n v).length = n := by
  unfold wireBytes; split <;> simp [leBytes_length]

theorem In.ensure_append {be : Bool} {bs rest : List Byte} :
    In.ensure ⟨be, false, bs ++ rest⟩ bs.length = true := by
  simp [In.ensure]

theorem Emits.write (be : Bool) (bs : List Byte) : Emits be (fun o => o.write bs) bs := by
  intro o hb he hr
  cases o; simp_all [Out.write, Out.ensure, Out.put]

theorem Emits.comp {be : Bool} {e f : Out → Out} {a b : List Byte} (he : Emits be e a) (hf : Emits be f b) :
    Emits be (fun o => f (e o)) (a ++ b) := by
  intro o h1 h2 h3
  have h := hf { o with data := o.data ++ a } h1 h2 h3
  simp only [he o h1 h2 h3, h, List.append_assoc]

theorem Emits.id (be : Bool) : Emits be (fun o => o) [] := by
  intro o _ _ _; simp

theorem emits_putInt (be : Bool) (n v : Nat) : Emits be (fun o => putInt o n v) (wireBytes be n v) := by
  intro o hb he hr
  subst hb
  exact Emits.write o.be _ o rfl he hr

theorem emits_putU8 (be : Bool) (b : Byte) : Emits be (fun o => putU8 o b) [b] := Emits.write be [b]

theorem good_getInt (n : Nat) : Good (getInt n) :=
  Good.take n (fun be b => leVal (if be then b.reverse else b)) 0

theorem parses_getInt (be : Bool) (n v : Nat) (h : v < 256 ^ n) : Parses be (getInt n) (wireBytes be n v) v := by
  intro rest
  have hl := wireBytes_length be n v
  have he : In.ensure ⟨be, false, wireBytes be n v ++ rest⟩ n = true := by
    simp [In.ensure, hl]
  have ht : List.take n (wireBytes be n v ++ rest) = wireBytes be n v := by
    rw [List.take_append_of_le_length (by omega), List.take_of_length_le (by omega)]
  have hd : List.drop n (wireBytes be n v ++ rest) = rest := by
    rw [List.drop_append_of_le_length (by omega), List.drop_of_length_le (by omega)]; rfl
  simp only [getInt, he, ht, hd]
  cases be <;> simp [wireBytes, leVal_leBytes, Nat.mod_eq_of_lt h]

theorem good_getU8 : Good getU8 := by
  refine Good.congr ?_ (Good.take 1 (fun _ b => b.headD 0) 0)
  intro i
  simp only [getU8]
  cases hc : i.ensure 1
  · simp
  · cases hr : i.rest with
    | nil => simp [In.ensure, hr] at hc
    | cons b r => simp

theorem getU8_short (i : In) (h : i.ensure 1 = false) : (getU8 i).2.err = true := by
  simp [getU8, h, In.fault]

theorem getInt_short (w : Nat) (i : In) (h : i.ensure w = false) : (getInt w i).2.err = true := by
  simp [getInt, h, In.fault]

theorem parses_getU8 (be : Bool) (b : Byte) : Parses be getU8 [b] b := by
  intro rest; simp [getU8, In.ensure]

/-! Size -/

/-- wire form of a count -/
def sizeBytes (be : Bool) (n : Nat) : List Byte :=
  if n < 254 then [UInt8.ofNat n] else 254 :: wireBytes be 4 n

theorem emits_putSize (be : Bool) (n : Nat) (h : n ≤ 0xffffffff) :
    Emits be (fun o => putSize o n) (sizeBytes be n) := by
  intro o hb he hr
  have hens : o.ensure 1 = true := by simp [Out.ensure, he, hr]
  simp only [putSize, hens, sizeBytes]
  by_cases hn : n < 254
  · simp [hn, Out.put, hr]
  · simp only [hn, h]
    have := emits_putInt be 4 n (o.put [254]) (by simp [Out.put, hb]) (by simp [Out.put, he]) (by simp [Out.put, hr])
    simp only [Bool.not_true, Bool.false_eq_true, ↓reduceIte]
    refine this.trans ?_; simp only [Out.put, hr]; simp

theorem good_getSize (an : Bool) : Good (getSize an) :=
  Good.guardBind 1 0 good_getU8 getU8_short (fun s => Good.ite' (c := s < 254) (Good.pure s.toNat)
    (Good.ite' (c := s = 254) (good_getInt 4)
      (Good.ite' (c := (decide (s = 255) && an) = true) (Good.pure nullSize) (Good.faultWith 0))))

theorem parses_getSize (be an : Bool) (n : Nat) (h : n ≤ 0xffffffff) :
    Parses be (getSize an) (sizeBytes be n) n := by
  intro rest
  simp only [getSize, sizeBytes]
  by_cases hn : n < 254
  · have hn' : UInt8.ofNat n < 254 := by
      rw [UInt8.lt_iff_toNat_lt]; simp; omega
    have : n % 256 = n := by omega
    simp [hn, In.ensure, getU8, hn', this]
  · have := parses_getInt be 4 n (by omega) rest
    simp only [hn, ↓reduceIte, List.cons_append]
    simp [In.ensure, getU8, this]

/-! Selector -/

def selBytes (be : Bool) (s : Int) : List Byte :=
  if s ≤ -1 then [255] else sizeBytes be s.toNat

theorem emits_putSel (be : Bool) (s : Int) (h : s ≤ 0xffffffff) :
    Emits be (fun o => putSel o s) (selBytes be s) := by
  intro o hb he hr
  have hens : o.ensure 1 = true := by simp [Out.ensure, he, hr]
  by_cases hn : s ≤ -1
  · simp [putSel, selBytes, hn, hens, Out.put, hr]
  · have hs := emits_putSize be s.toNat (by omega) o hb he hr
    simp only [selBytes, hn, ↓reduceIte]
    rw [← hs]
    by_cases h2 : s < 254
    · have : s.toNat < 254 := by omega
      simp [putSel, putSize, hens, hn, h2, this]
    · have h3 : ¬ s.toNat < 254 := by omega
      have h4 : s.toNat ≤ 4294967295 := by omega
      simp [putSel, putSize, hens, hn, h2, h3, h4, h]

theorem good_getSel : Good getSel :=
  Good.guardBind 1 (-1) good_getU8 getU8_short (fun s => Good.ite' (c := s < 254) (Good.pure (s.toNat : Int))
    (Good.ite' (c := s = 254) (Good.bind (good_getInt 4) fun n => Good.pure (n : Int))
      (Good.ite' (c := s = 255) (Good.pure (-1)) (Good.faultWith (-1)))))

theorem parses_getSel (be : Bool) (s : Int) (h1 : -1 ≤ s) (h : s ≤ 0xffffffff) :
    Parses be getSel (selBytes be s) s := by
  intro rest
  by_cases hn : s ≤ -1
  · have : s = -1 := by omega
    simp [this, selBytes, getSel, In.ensure, getU8]
  · simp only [selBytes, hn, ↓reduceIte, sizeBytes]
    by_cases h2 : s.toNat < 254
    · have hn' : UInt8.ofNat s.toNat < 254 := by
        rw [UInt8.lt_iff_toNat_lt]; simp; omega
      have : s.toNat % 256 = s.toNat := by omega
      have h3 : 0 ≤ s := by omega
      simp [getSel, h2, In.ensure, getU8, hn', this]
      omega
    · have := parses_getInt be 4 s.toNat (by omega) rest
      simp only [h2, ↓reduceIte, List.cons_append]
      have h3 : 0 ≤ s := by omega
      simp [getSel, In.ensure, getU8, this]; omega

/-! strings -/

def strBytes (be : Bool) (s : List Byte) : List Byte := sizeBytes be s.length ++ s

theorem emits_putStr (be : Bool) (s : List Byte) (h : s.length ≤ 0xffffffff) :
    Emits be (fun o => putStr o s) (strBytes be s) :=
  Emits.comp (emits_putSize be _ h) (Emits.write be s)

theorem good_getStr : Good getStr :=
  Good.bind (good_getSize true) fun n => Good.ite' (c := n = nullSize) (Good.pure [])
    (Good.take n (fun _ b => b) [])

theorem parses_getStr (be : Bool) (s : List Byte) (h : s.length ≤ 0xffffffff) :
    Parses be getStr (strBytes be s) s := by
  intro rest
  have := parses_getSize be true s.length h (s ++ rest)
  have h2 : s.length ≠ nullSize := by unfold nullSize; omega
  simp only [getStr, strBytes, List.append_assoc, this, h2, ↓reduceIte]
  simp [In.ensure]

/-! status -/

theorem good_getStatus : Good getStatus :=
  Good.guardBind 1 (⟨0, [], []⟩ : Status) good_getU8 getU8_short (fun c => Good.ite' (c := c = 255) (Good.pure (⟨0, [], []⟩ : Status))
    (Good.bind good_getStr fun m => Good.bind good_getStr fun t => Good.pure (⟨c, m, t⟩ : Status)))

def statusBytes (be : Bool) (s : Status) : List Byte :=
  if s.code = 0 ∧ s.msg = [] ∧ s.trace = [] then [255]
  else s.code :: (strBytes be (cstr s.msg) ++ strBytes be (cstr s.trace))

theorem cstr_length (s : List Byte) : (cstr s).length ≤ s.length := by
  unfold cstr
  exact (List.takeWhile_prefix _).length_le

theorem emits_putStatus (be : Bool) (s : Status) (hm : s.msg.length ≤ 0xffffffff) (ht : s.trace.length ≤ 0xffffffff) :
    Emits be (fun o => putStatus o s) (statusBytes be s) := by
  intro o hb he hr
  have hens : o.ensure 1 = true := by simp [Out.ensure, he, hr]
  by_cases hc : s.code = 0 ∧ s.msg = [] ∧ s.trace = []
  · simp [putStatus, statusBytes, hc, hens, Out.put, hr]
  · have hc' : ¬ ((decide (s.code = 0) && s.msg.isEmpty && s.trace.isEmpty) = true) := by
      simpa [and_assoc] using hc
    have h := Emits.comp (emits_putStr be (cstr s.msg) (Nat.le_trans (cstr_length _) hm))
      (emits_putStr be (cstr s.trace) (Nat.le_trans (cstr_length _) ht)) (o.put [s.code])
        (by simp [Out.put, hb]) (by simp [Out.put, he]) (by simp [Out.put, hr])
    simp only [putStatus, hens, hc', statusBytes, hc, ↓reduceIte, Bool.not_true, Bool.false_eq_true]
    refine h.trans ?_
    simp [Out.put, hr]

theorem parses_getStatus (be : Bool) (s : Status) (hc : s.code ≠ 255)
    (hm : s.msg.length ≤ 0xffffffff) (ht : s.trace.length ≤ 0xffffffff) :
    Parses be getStatus (statusBytes be s) ⟨s.code, cstr s.msg, cstr s.trace⟩ := by
  intro rest
  by_cases h0 : s.code = 0 ∧ s.msg = [] ∧ s.trace = []
  · simp [statusBytes, h0, getStatus, In.ensure, getU8, cstr]
  · have h1 := parses_getStr be (cstr s.msg) (Nat.le_trans (cstr_length _) hm)
      (strBytes be (cstr s.trace) ++ rest)
    have h2 := parses_getStr be (cstr s.trace) (Nat.le_trans (cstr_length _) ht) rest
    simp only [statusBytes, h0, ↓reduceIte, List.cons_append, List.append_assoc]
    simp [getStatus, In.ensure, getU8, hc, h1, h2]

/-! arrays -/

theorem emits_putPods (be : Bool) (w : Nat) (vs : List Nat) :
    Emits be (fun o => putPods w o vs) (vs.flatMap (wireBytes be w)) := by
  induction vs with
  | nil => exact Emits.id be
  | cons v vs ih =>
    simpa [putPods] using Emits.comp (emits_putInt be w v) ih

theorem emits_putPodArr (be : Bool) (w : Nat) (vs : List Nat) (h : vs.length ≤ 0xffffffff) :
    Emits be (fun o => putPodArr w o vs) (sizeBytes be vs.length ++ vs.flatMap (wireBytes be w)) :=
  Emits.comp (emits_putSize be _ h) (emits_putPods be w vs)

theorem good_getPods (w n : Nat) : Good (getPods w n) := by
  induction n with
  | zero => exact Good.pure []
  | succ n ih =>
    exact Good.guardBind w [] (good_getInt w) (getInt_short w) (fun v => Good.bind ih fun vs => Good.pure (v :: vs))

theorem parses_getPods (be : Bool) (w : Nat) (vs : List Nat) (h : ∀ v ∈ vs, v < 256 ^ w) :
    Parses be (getPods w vs.length) (vs.flatMap (wireBytes be w)) vs := by
  induction vs with
  | nil => intro rest; rfl
  | cons v vs ih =>
    intro rest
    have h1 := parses_getInt be w v (h v (by simp)) (vs.flatMap (wireBytes be w) ++ rest)
    have h2 := ih (fun x hx => h x (by simp [hx])) rest
    have hl := wireBytes_length be w v
    have he : In.ensure ⟨be, false, wireBytes be w v ++ (vs.flatMap (wireBytes be w) ++ rest)⟩ w = true := by
      simp [In.ensure]; omega
    simp only [List.length_cons, getPods, List.flatMap_cons, List.append_assoc, he, h1, h2]
    simp

theorem good_getPodArr (w : Nat) : Good (getPodArr w) :=
  Good.bind (good_getSize false) fun n => good_getPods w n

theorem parses_getPodArr (be : Bool) (w : Nat) (vs : List Nat) (h : ∀ v ∈ vs, v < 256 ^ w)
    (hn : vs.length ≤ 0xffffffff) :
    Parses be (getPodArr w) (sizeBytes be vs.length ++ vs.flatMap (wireBytes be w)) vs := by
  intro rest
  have h1 := parses_getSize be false vs.length hn (vs.flatMap (wireBytes be w) ++ rest)
  simp only [getPodArr, List.append_assoc, h1]
  exact parses_getPods be w vs h rest

theorem emits_putStrs (be : Bool) (ss : List (List Byte)) (h : ∀ s ∈ ss, s.length ≤ 0xffffffff) :
    Emits be (fun o => putStrs o ss) (ss.flatMap (strBytes be)) := by
  induction ss with
  | nil => exact Emits.id be
  | cons s ss ih =>
    simpa [putStrs] using Emits.comp (emits_putStr be s (h s (by simp))) (ih fun x hx => h x (by simp [hx]))

theorem emits_putStrArr (be : Bool) (ss : List (List Byte)) (h : ∀ s ∈ ss, s.length ≤ 0xffffffff)
    (hn : ss.length ≤ 0xffffffff) :
    Emits be (fun o => putStrArr o ss) (sizeBytes be ss.length ++ ss.flatMap (strBytes be)) :=
  Emits.comp (emits_putSize be _ hn) (emits_putStrs be ss h)

theorem good_getStrs (n : Nat) : Good (getStrs n) := by
  induction n with
  | zero => exact Good.pure []
  | succ n ih =>
    exact Good.bind good_getStr fun s => Good.stop [s] (Good.bind ih fun ss => Good.pure (s :: ss))

theorem parses_getStrs (be : Bool) (ss : List (List Byte)) (h : ∀ s ∈ ss, s.length ≤ 0xffffffff) :
    Parses be (getStrs ss.length) (ss.flatMap (strBytes be)) ss := by
  induction ss with
  | nil => intro rest; rfl
  | cons s ss ih =>
    intro rest
    have h1 := parses_getStr be s (h s (by simp)) (ss.flatMap (strBytes be) ++ rest)
    have h2 := ih (fun x hx => h x (by simp [hx])) rest
    simp only [List.length_cons, getStrs, List.flatMap_cons, List.append_assoc, h1, h2]
    simp

theorem good_getStrArr : Good getStrArr :=
  Good.bind (good_getSize false) fun n => good_getStrs n

theorem parses_getStrArr (be : Bool) (ss : List (List Byte)) (h : ∀ s ∈ ss, s.length ≤ 0xffffffff)
    (hn : ss.length ≤ 0xffffffff) :
    Parses be getStrArr (sizeBytes be ss.length ++ ss.flatMap (strBytes be)) ss := by
  intro rest
  have h1 := parses_getSize be false ss.length hn (ss.flatMap (strBytes be) ++ rest)
  simp only [getStrArr, List.append_assoc, h1]
  exact parses_getStrs be ss h rest

/-! consequences of `Good` -/

/-- a decoder which accepts `bs` exactly never accepts a strict prefix of it -/
theorem Good.no_prefix {d : Dec α} (g : Good d) {be : Bool} {bs : List Byte} {a : α} (hp : Parses be d bs a)
    {p q : List Byte} (hpq : bs = p ++ q) (hq : q ≠ []) : (d ⟨be, false, p⟩).2.err = true := by
  cases he : (d ⟨be, false, p⟩).2.err with
  | true => rfl
  | false =>
    have h1 := g.mono ⟨be, false, p⟩ q he
    have h2 := hp []
    simp only [List.append_nil] at h2
    rw [hpq] at h2
    rw [h2] at h1
    have h3 := congrArg (fun r => r.2.rest) h1
    simp only at h3
    have := List.append_eq_nil_iff.mp h3.symm
    exact absurd this.2 hq

/-! header -/

def headerBytes (be : Bool) (h : Header) : List Byte :=
  [0xca, 2, if be then h.flags ||| flagMSB else h.flags, h.cmd] ++ wireBytes be 4 h.len

theorem emits_putHeader (be : Bool) (h : Header) : Emits be (fun o => putHeader o h) (headerBytes be h) := by
  intro o hb he hr
  have hens : o.ensure 8 = true := by simp [Out.ensure, he, hr]
  have := emits_putInt be 4 h.len (o.put [0xca, 2, if o.be then h.flags ||| flagMSB else h.flags, h.cmd])
    (by simp [Out.put, hb]) (by simp [Out.put, he]) (by simp [Out.put, hr])
  simp only [putHeader, hens, Bool.not_true, Bool.false_eq_true, ↓reduceIte, ite_self]
  refine this.trans ?_
  simp [Out.put, hr, headerBytes, hb]

/-- `getHeader` accepts exactly the 8 byte inputs with the right magic and a non-zero version -/
theorem getHeader_eq (be : Bool) (m v f c b0 b1 b2 b3 : Byte) (rest : List Byte) :
    getHeader ⟨be, false, m :: v :: f :: c :: b0 :: b1 :: b2 :: b3 :: rest⟩ =
      if m ≠ 0xca ∨ v = 0 then (⟨0, 0, 0, 0⟩, ⟨be, true, m :: v :: f :: c :: b0 :: b1 :: b2 :: b3 :: rest⟩)
      else (⟨c, f, v, leVal (if f &&& flagMSB ≠ 0 then [b3, b2, b1, b0] else [b0, b1, b2, b3])⟩,
        ⟨f &&& flagMSB ≠ 0, false, rest⟩) := by
  have hens : In.ensure ⟨be, false, m :: v :: f :: c :: b0 :: b1 :: b2 :: b3 :: rest⟩ 8 = true := by
    simp [In.ensure]
  by_cases hc : m ≠ 0xca ∨ v = 0
  · have : (decide (m ≠ 0xca) || decide (v = 0)) = true := by simpa using hc
    simp only [getHeader, hens, this, hc, In.fault]; simp
  · have h2 : ¬ ((decide (m ≠ 0xca) || decide (v = 0)) = true) := by simpa using hc
    simp only [getHeader, hens, h2, hc]
    simp [In.skip, getInt, In.ensure]

theorem parses_getHeader (be0 be : Bool) (h : Header) (hl : h.len < 2 ^ 32)
    (hf : be = false → h.flags &&& flagMSB = 0) (rest : List Byte) :
    getHeader ⟨be0, false, headerBytes be h ++ rest⟩ =
      (⟨h.cmd, if be then h.flags ||| flagMSB else h.flags, 2, h.len⟩, ⟨be, false, rest⟩) := by
  have hm : ∀ x : Byte, (x ||| flagMSB) &&& flagMSB ≠ 0 := by
    intro x hx
    have := congrArg UInt8.toBitVec hx
    have h7 := congrArg (fun b => b.getLsbD 7) this
    simp [flagMSB] at h7
  have hlen : leVal (leBytes 4 h.len) = h.len := by
    rw [leVal_leBytes]; exact Nat.mod_eq_of_lt (by omega)
  cases be
  · have := hf rfl
    rw [← hlen]
    simp only [headerBytes, wireBytes, leBytes, List.cons_append, List.nil_append, getHeader_eq,
      Bool.false_eq_true, ↓reduceIte, this]
    simp
  · have := hm h.flags
    rw [← hlen]
    simp only [headerBytes, wireBytes, leBytes, List.cons_append, List.nil_append, getHeader_eq,
      ↓reduceIte, List.reverse_cons, List.reverse_nil]
    simp [this]

theorem getHeader_short (i : In) (h : i.rest.length < 8) : (getHeader i).2 = i.fault := by
  have : i.ensure 8 = false := by
    have : ¬ 8 ≤ i.rest.length := by omega
    simp [In.ensure, this]
  simp [getHeader, this]

theorem list8 (l : List α) (h : 8 ≤ l.length) :
    ∃ a b c d e f g k r, l = a :: b :: c :: d :: e :: f :: g :: k :: r := by
  match l, h with
  | a :: b :: c :: d :: e :: f :: g :: k :: r, _ => exact ⟨a, b, c, d, e, f, g, k, r, rfl⟩
  | [], h => simp at h
  | [_], h => simp at h
  | [_, _], h => simp at h
  | [_, _, _], h => simp at h
  | [_, _, _, _], h => simp at h
  | [_, _, _, _, _], h => simp at h
  | [_, _, _, _, _, _], h => simp at h
  | [_, _, _, _, _, _, _], h => simp at h

/-! addresses -/

theorem good_getAddr : Good getAddr := by
  refine Good.congr ?_ (Good.take 16 (fun _ b => if b.take 12 = v4prefix then
      match b.drop 12 with
      | [p, q, r, s] => Addr.v4 p q r s
      | _ => .unspec
    else .v6 b) .unspec)
  intro i
  simp only [getAddr]
  split
  · rfl
  · split
    · generalize List.drop 12 (List.take 16 i.rest) = l
      match l with
      | [] | [_] | [_, _] | [_, _, _] | [_, _, _, _] | _ :: _ :: _ :: _ :: _ :: _ => rfl
    · rfl

def addrBytes : Addr → List Byte
  | .v4 a b c d => v4prefix ++ [a, b, c, d]
  | .v6 bs => bs
  | .unspec => []

theorem emits_putAddr (be : Bool) (junk : List Byte) (a : Addr) (h : a ≠ .unspec) :
    Emits be (fun o => putAddr junk o a) (addrBytes a) := by
  intro o hb he hr
  have hens : o.ensure 16 = true := by simp [Out.ensure, he, hr]
  cases a <;> simp_all [putAddr, addrBytes, Out.put]

theorem parses_getAddr_v4 (be : Bool) (a b c d : Byte) :
    Parses be getAddr (v4prefix ++ [a, b, c, d]) (.v4 a b c d) := by
  intro rest
  simp [getAddr, In.ensure, v4prefix, List.replicate]

theorem parses_getAddr_v6 (be : Bool) (bs : List Byte) (hl : bs.length = 16) (hp : bs.take 12 ≠ v4prefix) :
    Parses be getAddr bs (.v6 bs) := by
  intro rest
  have h1 : List.take 16 (bs ++ rest) = bs := by
    rw [List.take_append_of_le_length (by omega), List.take_of_length_le (by omega)]
  have h2 : List.drop 16 (bs ++ rest) = rest := by
    rw [List.drop_append_of_le_length (by omega), List.drop_of_length_le (by omega)]; rfl
  simp [getAddr, In.ensure, h1, h2, hp, hl]

/-! segmented input -/

/-- the flat buffer represented by a segmented one -/
def EvIn.flat (e : EvIn) : In := ⟨e.be, e.err, e.slice ++ e.more⟩

theorem EvIn.ensure_flat (cut : Nat) (e : EvIn) (n : Nat) :
    (e.ensure cut n).1 = e.flat.ensure n ∧ (e.ensure cut n).2.flat = e.flat ∧
    ((e.ensure cut n).1 = true → n ≤ (e.ensure cut n).2.slice.length) := by
  obtain ⟨be, err, slice, more⟩ := e
  cases err
  · by_cases h1 : n ≤ slice.length
    · have : n ≤ slice.length + more.length := by omega
      simp [EvIn.ensure, EvIn.flat, In.ensure, h1, this]
    · by_cases h2 : (slice ++ more) = []
      · have h3 := List.append_eq_nil_iff.mp h2
        have h4 : ¬ n ≤ 0 := by omega
        simp [EvIn.ensure, EvIn.refill, EvIn.flat, In.ensure, h3.1, h3.2, h4]
      · have h3 : ¬ ((slice ++ more).isEmpty = true) := by simpa using h2
        simp only [EvIn.ensure, EvIn.refill, EvIn.flat, In.ensure, h1, h3]
        simp only [List.length_append, List.length_take, Bool.false_eq_true, ↓reduceIte, decide_eq_decide,
          List.take_append_drop, Bool.not_false, Bool.true_and, decide_eq_true_eq]
        refine ⟨?_, trivial, ?_⟩
        · constructor <;> intro h <;> omega
        · exact id
  · simp [EvIn.ensure, EvIn.flat, In.ensure]

theorem EvIn.advance_flat (e : EvIn) (n : Nat) (h : n ≤ e.slice.length) :
    (e.advance n).flat = { e.flat with rest := e.flat.rest.drop n } := by
  simp [EvIn.advance, EvIn.flat, List.drop_append_of_le_length h]

end Pvxs.Wire
