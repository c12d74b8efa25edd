import Verif.Lemmas.Wire
import Verif.Spec.Packet
import Verif.Props.Wire
/-! Decoders accept exactly what the grammar says. -/
namespace Pvxs.Wire
open Spec Spec.Packet

structure Reads (d : Dec α) (G : Bool → α → List Byte → Prop) : Prop where
  err : ∀ i, i.err = true → (d i).2.err = true
  be : ∀ i, (d i).2.be = i.be
  exact : ∀ be l a r, d ⟨be, false, l⟩ = (a, ⟨be, false, r⟩) ↔ ∃ bs, l = bs ++ r ∧ G be a bs

theorem Reads.err_false {d : Dec α} {G : Bool → α → List Byte → Prop} (h : Reads d G) (i : In) (he : (d i).2.err = false) : i.err = false := by
  cases hi : i.err with
  | false => rfl
  | true => rw [h.err i hi] at he; cases he

/-- success, in terms of the grammar -/
theorem Reads.ok {d : Dec α} {G : Bool → α → List Byte → Prop} (h : Reads d G) {be : Bool} {l : List Byte}
    (he : (d ⟨be, false, l⟩).2.err = false) :
    d ⟨be, false, l⟩ = ((d ⟨be, false, l⟩).1, ⟨be, false, (d ⟨be, false, l⟩).2.rest⟩) := by
  have hb := h.be ⟨be, false, l⟩
  generalize d ⟨be, false, l⟩ = x at *
  obtain ⟨a, b, e, r⟩ := x
  simp only at hb he ⊢
  rw [hb, he]

theorem Reads.bind {d : Dec α} {f : α → Dec β} {G : Bool → α → List Byte → Prop} {H : α → Bool → β → List Byte → Prop}
    (hd : Reads d G) (hf : ∀ a, Reads (f a) (H a)) :
    Reads (d >>= f) (fun be b bs => ∃ a u v, bs = u ++ v ∧ G be a u ∧ H a be b v) where
  err i h := (hf _).err _ (hd.err i h)
  be i := by rw [Dec.bind_apply, (hf _).be, hd.be]
  exact be l b r := by
    rw [Dec.bind_apply]
    constructor
    · intro h
      have he : (d ⟨be, false, l⟩).2.err = false := (hf _).err_false _ (by rw [h])
      have e := hd.ok he
      obtain ⟨u, hu, hG⟩ := (hd.exact be l _ _).mp e
      have h2 : (d ⟨be, false, l⟩).2 = ⟨be, false, (d ⟨be, false, l⟩).2.rest⟩ := congrArg Prod.snd e
      rw [h2] at h
      obtain ⟨v, hv, hH⟩ := ((hf _).exact be _ b r).mp h
      exact ⟨u ++ v, by rw [hu, hv, List.append_assoc], _, u, v, rfl, hG, hH⟩
    · rintro ⟨bs, rfl, a, u, v, rfl, hG, hH⟩
      have e := (hd.exact be (u ++ v ++ r) a (v ++ r)).mpr ⟨u, by rw [List.append_assoc], hG⟩
      rw [e]
      exact ((hf a).exact be (v ++ r) b r).mpr ⟨v, rfl, hH⟩

theorem Reads.pure (a : α) : Reads (Pure.pure a : Dec α) (fun _ b bs => b = a ∧ bs = []) where
  err _ h := h
  be _ := rfl
  exact be l b r := by
    simp only [Dec.pure_apply, Prod.mk.injEq, In.mk.injEq, true_and]
    constructor
    · rintro ⟨rfl, rfl⟩; exact ⟨[], rfl, rfl, rfl⟩
    · rintro ⟨bs, rfl, rfl, rfl⟩; exact ⟨rfl, rfl⟩

theorem Reads.imp {d : Dec α} {G H : Bool → α → List Byte → Prop} (h : Reads d G) (hi : ∀ be a bs, G be a bs ↔ H be a bs) : Reads d H where
  err := h.err
  be := h.be
  exact be l a r := by
    rw [h.exact]
    exact ⟨fun ⟨bs, h1, h2⟩ => ⟨bs, h1, (hi _ _ _).mp h2⟩, fun ⟨bs, h1, h2⟩ => ⟨bs, h1, (hi _ _ _).mpr h2⟩⟩

/-- exactly `n` bytes are taken -/
theorem Reads.take (n : Nat) (f : Bool → List Byte → α) (dflt : α) :
    Reads (fun i => if !i.ensure n then (dflt, i.fault) else (f i.be (i.rest.take n), { i with rest := i.rest.drop n }) : Dec α)
      (fun be a bs => bs.length = n ∧ a = f be bs) where
  err i h := by simp [In.ensure, h, In.fault]
  be i := by split <;> rfl
  exact be l a r := by
    simp only [In.ensure, Bool.not_false, Bool.true_and, In.fault]
    by_cases hn : n ≤ l.length
    · simp only [hn, decide_true, Bool.not_true, Bool.false_eq_true, if_false, Prod.mk.injEq, In.mk.injEq, true_and]
      constructor
      · rintro ⟨rfl, rfl⟩
        exact ⟨l.take n, (List.take_append_drop n l).symm, by rw [List.length_take]; omega, rfl⟩
      · rintro ⟨bs, rfl, hl, rfl⟩
        rw [← hl, List.take_left, List.drop_left]
        exact ⟨rfl, rfl⟩
    · simp only [hn, decide_false, Bool.not_false, if_true, Prod.mk.injEq, In.mk.injEq, Bool.true_eq_false, false_and, and_false, false_iff]
      rintro ⟨bs, rfl, hl, rfl⟩
      rw [List.length_append] at hn
      omega

theorem wireBytes_digits (be : Bool) (n v : Nat) : wireBytes be n v = if be then digitsMSB n v else digitsLSB n v := by
  unfold wireBytes
  rw [← Props.digits_reverse, ← Props.leBytes_digits]

theorem num_iff (be : Bool) (n v : Nat) (bs : List Byte) :
    (bs.length = n ∧ v = leVal (if be then bs.reverse else bs)) ↔ IsNum be n v bs := by
  unfold IsNum
  rw [← wireBytes_digits]
  constructor
  · rintro ⟨rfl, rfl⟩
    refine ⟨?_, ?_⟩
    · have := leVal_lt (if be then bs.reverse else bs)
      have e : (if be then bs.reverse else bs).length = bs.length := by split <;> simp
      rwa [e] at this
    · cases be with
      | false => simp [wireBytes, leBytes_leVal]
      | true =>
        have := leBytes_leVal bs.reverse
        rw [List.length_reverse] at this
        simp [wireBytes, this]
  · rintro ⟨h, rfl⟩
    refine ⟨wireBytes_length be n v, ?_⟩
    cases be <;> simp [wireBytes, leVal_leBytes, Nat.mod_eq_of_lt h]

theorem reads_getInt (n : Nat) : Reads (getInt n) (fun be v bs => IsNum be n v bs) :=
  (Reads.take n (fun be bs => leVal (if be then bs.reverse else bs)) 0).imp fun be v bs => num_iff be n v bs

theorem reads_getU8 : Reads getU8 (fun _ b bs => bs = [b]) where
  err i h := by simp [getU8, In.ensure, h, In.fault]
  be i := by
    unfold getU8
    split
    · rfl
    · split <;> rfl
  exact be l a r := by
    cases l with
    | nil =>
      simp only [getU8, In.ensure, In.fault]
      constructor
      · intro h; simp at h
      · rintro ⟨bs, h, rfl⟩; cases h
    | cons b l =>
      simp only [getU8, In.ensure, In.fault]
      simp only [Bool.not_false, List.length_cons, Nat.le_add_left, decide_true, Bool.and_self, Bool.not_true, Bool.false_eq_true, if_false,
        Prod.mk.injEq, In.mk.injEq, true_and]
      constructor
      · rintro ⟨rfl, rfl⟩; exact ⟨[b], rfl, rfl⟩
      · rintro ⟨bs, h, rfl⟩
        injection h with h1 h2
        exact ⟨h1, h2⟩

theorem reads_getSize : Reads (getSize false) (fun be n bs => IsSize be n bs) where
  err := (good_getSize false).err_true
  be := (good_getSize false).be
  exact be l a r := by
    cases l with
    | nil =>
      constructor
      · intro h; simp [getSize, In.ensure, In.fault] at h
      · rintro ⟨bs, h, hs⟩
        have hb : bs = [] := (List.append_eq_nil_iff.mp h.symm).1
        subst hb
        rcases hs with ⟨_, h⟩ | ⟨d, _, h⟩ <;> cases h
    | cons b l =>
      have hstep : getSize false ⟨be, false, b :: l⟩ = if b < 254 then (b.toNat, ⟨be, false, l⟩) else if b = 254 then getInt 4 ⟨be, false, l⟩
          else (0, ⟨be, true, l⟩) := by
        simp [getSize, In.ensure, getU8, In.fault]
      rw [hstep]
      by_cases h1 : b < 254
      · rw [if_pos h1]
        simp only [Prod.mk.injEq, In.mk.injEq, true_and]
        have hb : b.toNat < 254 := h1
        constructor
        · rintro ⟨rfl, rfl⟩
          exact ⟨[b], rfl, Or.inl ⟨hb, by simp⟩⟩
        · rintro ⟨bs, h, ⟨ha, rfl⟩ | ⟨d, hd, rfl⟩⟩
          · injection h with h2 h3
            subst h2 h3
            refine ⟨?_, rfl⟩
            simp
            omega
          · injection h with h2 h3
            subst h2
            exact absurd hb (by decide)
      · rw [if_neg h1]
        by_cases h2 : b = 254
        · rw [if_pos h2, (reads_getInt 4).exact]
          subst h2
          constructor
          · rintro ⟨bs, rfl, hd⟩
            exact ⟨254 :: bs, rfl, Or.inr ⟨bs, hd, rfl⟩⟩
          · rintro ⟨bs, h, ⟨ha, rfl⟩ | ⟨d, hd, rfl⟩⟩
            · injection h with h3 h4
              exfalso
              have := congrArg UInt8.toNat h3
              simp at this
              omega
            · injection h with _ h4
              exact ⟨d, h4, hd⟩
        · rw [if_neg h2]
          constructor
          · intro h; simp at h
          · rintro ⟨bs, h, ⟨ha, rfl⟩ | ⟨d, hd, rfl⟩⟩
            · injection h with h3 h4
              exfalso
              apply h1
              rw [h3]
              show (UInt8.ofNat a).toNat < 254
              simp
              omega
            · injection h with h3 _
              exact absurd h3 h2

theorem getSize_null (be : Bool) (b : Byte) (l : List Byte) :
    getSize true ⟨be, false, b :: l⟩ = if b = 255 then (nullSize, ⟨be, false, l⟩) else getSize false ⟨be, false, b :: l⟩ := by
  simp only [getSize, In.ensure, getU8, In.fault]
  by_cases h : b = 255
  · subst h; simp
  · simp [h]

theorem isSize_lt {be : Bool} {n : Nat} {bs : List Byte} (h : IsSize be n bs) : n < 2 ^ 32 := by
  rcases h with ⟨h, _⟩ | ⟨d, h, _⟩
  · omega
  · have := h.1; simpa using this

theorem getStr_cases (be : Bool) (b : Byte) (l : List Byte) : getStr ⟨be, false, b :: l⟩ =
    if b = 255 then ([], ⟨be, false, l⟩)
    else if !(getSize false ⟨be, false, b :: l⟩).2.ensure (getSize false ⟨be, false, b :: l⟩).1 then ([], (getSize false ⟨be, false, b :: l⟩).2.fault)
      else ((getSize false ⟨be, false, b :: l⟩).2.rest.take (getSize false ⟨be, false, b :: l⟩).1,
        { (getSize false ⟨be, false, b :: l⟩).2 with rest := (getSize false ⟨be, false, b :: l⟩).2.rest.drop (getSize false ⟨be, false, b :: l⟩).1 }) := by
  unfold getStr
  rw [getSize_null]
  by_cases h : b = 255
  · simp [h]
  · simp only [h, if_false]
    have hne : (getSize false ⟨be, false, b :: l⟩).1 ≠ nullSize := by
      cases he : (getSize false ⟨be, false, b :: l⟩).2.err with
      | false =>
        have := reads_getSize.ok he
        obtain ⟨bs, _, hs⟩ := (reads_getSize.exact _ _ _ _).mp this
        have := isSize_lt hs
        intro hx
        rw [hx] at this
        simp [nullSize] at this
      | true =>
        intro hx
        have hz : (getSize false ⟨be, false, b :: l⟩).1 = 0 := by
          simp only [getSize, In.ensure, getU8, In.fault] at he ⊢
          simp only [Bool.not_false, List.length_cons, Nat.le_add_left, decide_true, Bool.and_self, Bool.not_true, Bool.false_eq_true, if_false,
            Bool.and_false] at he ⊢
          split at he
          · cases he
          · rename_i h1
            rw [if_neg h1]
            split at he
            · rename_i h2
              rw [if_pos h2]
              simp only [getInt, In.ensure, In.fault] at he ⊢
              split at he
              · rename_i h3; rw [if_pos h3]
              · cases he
            · rename_i h2
              rw [if_neg h2]
        rw [hz] at hx
        exact absurd hx (by decide)
    simp [hne]

theorem reads_getStr : Reads getStr (fun be s bs => IsStr be s bs) where
  err := good_getStr.err_true
  be := good_getStr.be
  exact be l a r := by
    cases l with
    | nil =>
      constructor
      · intro h; simp [getStr, getSize, In.ensure, In.fault, nullSize] at h
      · rintro ⟨bs, h, hs⟩
        have hb : bs = [] := (List.append_eq_nil_iff.mp h.symm).1
        subst hb
        rcases hs with ⟨_, h⟩ | ⟨p, h, hp⟩
        · cases h
        · have hp := (List.append_eq_nil_iff.mp hp.symm).1
          subst hp
          rcases h with ⟨_, h⟩ | ⟨d, _, h⟩ <;> cases h
    | cons b l =>
      rw [getStr_cases]
      by_cases hb : b = 255
      · rw [if_pos hb]
        subst hb
        simp only [Prod.mk.injEq, In.mk.injEq, true_and]
        constructor
        · rintro ⟨rfl, rfl⟩; exact ⟨[255], rfl, Or.inl ⟨rfl, rfl⟩⟩
        · rintro ⟨bs, h, ⟨rfl, rfl⟩ | ⟨p, hp, rfl⟩⟩
          · injection h with _ h; exact ⟨rfl, h⟩
          · exfalso
            rcases hp with ⟨h1, rfl⟩ | ⟨d, _, rfl⟩
            · injection h with h2 _
              have := congrArg UInt8.toNat h2
              simp at this
              omega
            · injection h with h2 _
              exact absurd h2 (by decide)
      · rw [if_neg hb]
        have hR := (reads_getSize.bind (f := fun n i => if !i.ensure n then ([], i.fault) else (i.rest.take n, { i with rest := i.rest.drop n }))
          (fun n => Reads.take n (fun _ bs => bs) []) ).exact be (b :: l) a r
        refine hR.trans ?_
        constructor
        · rintro ⟨bs, h, n, u, v, rfl, hu, hv, rfl⟩
          exact ⟨_, h, Or.inr ⟨u, by rw [hv]; exact hu, rfl⟩⟩
        · rintro ⟨bs, h, ⟨rfl, rfl⟩ | ⟨p, hp, rfl⟩⟩
          · injection h with h _; exact absurd h hb
          · exact ⟨_, h, a.length, p, a, rfl, hp, rfl, rfl⟩

theorem reads_getAddr : Reads getAddr (fun _ a bs => IsAddr a bs) := by
  have h := Reads.take (α := Addr) 16 (fun _ b => if b.take 12 = v4prefix then
      match b.drop 12 with
      | [p, q, r, s] => .v4 p q r s
      | _ => .unspec
    else .v6 b) .unspec
  have e : getAddr = fun i => if !i.ensure 16 then (.unspec, i.fault) else ((if (i.rest.take 16).take 12 = v4prefix then
      match (i.rest.take 16).drop 12 with
      | [p, q, r, s] => .v4 p q r s
      | _ => .unspec
    else .v6 (i.rest.take 16)), { i with rest := i.rest.drop 16 }) := by
    funext i
    unfold getAddr
    split
    · rfl
    · dsimp only
      split
      · split
        · rename_i heq; rw [heq]
        · rename_i heq
          split
          · rename_i heq'; exact absurd heq' (heq _ _ _ _)
          · rfl
      · rfl
  rw [e]
  refine h.imp ?_
  intro be a bs
  constructor
  · rintro ⟨hl, rfl⟩
    obtain ⟨p, q, hpq, hp12⟩ : ∃ p q, bs = p ++ q ∧ p.length = 12 := ⟨bs.take 12, bs.drop 12, (List.take_append_drop 12 bs).symm, by simp [hl]⟩
    subst hpq
    have hq : q.length = 4 := by simp at hl; omega
    match q, hq with
    | [x, y, z, w], _ =>
      rw [← hp12, List.take_left, List.drop_left]
      split
      · rename_i he
        exact Or.inl ⟨x, y, z, w, rfl, by rw [he]; rfl⟩
      · rename_i he
        exact Or.inr ⟨rfl, hl, by rw [← hp12, List.take_left]; exact he⟩
  · rintro (⟨p, q, r, s, rfl, rfl⟩ | ⟨rfl, hl, hne⟩)
    · exact ⟨rfl, rfl⟩
    · refine ⟨hl, ?_⟩
      rw [if_neg]
      exact hne

theorem reads_skip (n : Nat) : Reads (fun i => ((), i.skip n)) (fun _ _ bs => bs.length = n) where
  err i h := by simp only [In.skip]; split <;> first | exact h | rfl
  be i := by simp only [In.skip]; split <;> rfl
  exact be l a r := by
    simp only [In.skip]
    by_cases hn : n ≤ l.length
    · simp only [hn, if_true, Prod.mk.injEq, In.mk.injEq, true_and]
      constructor
      · rintro rfl
        exact ⟨l.take n, (List.take_append_drop n l).symm, by rw [List.length_take]; omega⟩
      · rintro ⟨bs, rfl, hl⟩
        rw [← hl, List.drop_left]
    · simp only [hn, if_false, Prod.mk.injEq, In.mk.injEq, Bool.true_eq_false, false_and, and_false, false_iff]
      rintro ⟨bs, rfl, hl⟩
      rw [List.length_append] at hn
      omega

end Pvxs.Wire
