import Verif.Spec.OutBuf
/-
C121: output buffers
-/
namespace Pvxs.Props.OutBuf
open Pvxs.OutBuf Pvxs.Spec.OutBuf

/-- what is used of both kinds -/
structure Laws {σ : Type} (k : Kind σ) (v : View σ) (good : σ → Prop) : Prop where
  err_eq : ∀ s, k.err s = v.err s
  fault : ∀ s, good s → good (k.fault s) ∧ v.out (k.fault s) = v.out s ∧ v.err (k.fault s) = true
  refill : ∀ s n, good s → 0 < n → v.err s = false → good (k.refill s n).2 ∧ v.out (k.refill s n).2 = v.out s ∧ v.err (k.refill s n).2 = false ∧
    ((k.refill s n).1 = true → n ≤ k.size (k.refill s n).2) ∧ (v.plenty s → (k.refill s n).1 = true ∧ v.plenty (k.refill s n).2)
  store : ∀ s bs, good s → bs.length ≤ k.size s → bs ≠ [] → good (k.store s bs) ∧ v.out (k.store s bs) = v.out s ++ bs ∧ v.err (k.store s bs) = v.err s ∧
    (v.plenty s → v.plenty (k.store s bs))
  store_nil : ∀ s, good s → good (k.store s []) ∧ v.out (k.store s []) = v.out s ∧ v.err (k.store s []) = v.err s ∧ (v.plenty s → v.plenty (k.store s []))

theorem roundUp_ge (n : Nat) : n ≤ roundUp n := by
  unfold roundUp
  have : n - 1 ≤ (n - 1) ||| 0xff := Nat.left_le_or
  omega

theorem nextOk_plenty (l : List Bool) (h : ∀ a ∈ l, a = true) : nextOk l = true := by
  cases l with
  | nil => rfl
  | cons a l => exact h a (by simp)

theorem vec_laws : Laws vec vecView (fun s => s.pos ≤ s.backing.length) where
  err_eq s := rfl
  fault s h := ⟨h, rfl, rfl⟩
  refill s n h hn he := by
    have he' : s.err = false := he
    cases hq : nextOk s.answers
    · have e : vec.refill s n = (false, { s with answers := s.answers.drop 1 }) := by
        show Vec.refill s n = _
        unfold Vec.refill
        rw [he', hq]
        rfl
      rw [e]
      refine ⟨h, rfl, he', (by intro h; cases h), ?_⟩
      intro hp
      rw [nextOk_plenty _ hp] at hq
      cases hq
    · have e : vec.refill s n = (true, { s with backing := s.backing ++ List.replicate (roundUp n) 0, answers := s.answers.drop 1 }) := by
        show Vec.refill s n = _
        unfold Vec.refill
        rw [he', hq]
        rfl
      rw [e]
      have hle : s.pos ≤ (s.backing ++ List.replicate (roundUp n) 0).length := by rw [List.length_append]; omega
      refine ⟨hle, ?_, he', ?_, ?_⟩
      · show List.take s.pos (s.backing ++ _) = List.take s.pos s.backing
        rw [List.take_append_of_le_length h]
      · intro _
        have := roundUp_ge n
        show n ≤ (s.backing ++ List.replicate (roundUp n) (0 : Byte)).length - s.pos
        rw [List.length_append, List.length_replicate]
        omega
      · intro hp
        exact ⟨rfl, fun a ha => hp a (List.mem_of_mem_drop ha)⟩
  store s bs h hl _ := by
    have hl' : bs.length ≤ s.backing.length - s.pos := hl
    have hlen : (s.backing.take s.pos ++ bs).length = s.pos + bs.length := by
      rw [List.length_append, List.length_take, Nat.min_eq_left h]
    refine ⟨?_, ?_, rfl, fun hp => hp⟩
    · show s.pos + bs.length ≤ (s.backing.take s.pos ++ bs ++ s.backing.drop (s.pos + bs.length)).length
      rw [List.length_append, hlen]; omega
    · show List.take (s.pos + bs.length) (s.backing.take s.pos ++ bs ++ s.backing.drop (s.pos + bs.length)) = s.backing.take s.pos ++ bs
      exact List.take_left' hlen
  store_nil s h := by
    have e : vec.store s [] = s := by
      show Vec.store s [] = s
      unfold Vec.store
      rw [List.append_nil, List.length_nil, Nat.add_zero, List.take_append_drop]
    rw [e]
    exact ⟨h, rfl, rfl, fun hp => hp⟩

theorem commit_out (s : Ev) : evView.out s.commit = evView.out s ∧ s.commit.block = none ∧ s.commit.err = s.err ∧ s.commit.answers = s.answers := by
  obtain ⟨b, bl, e, a⟩ := s
  cases bl with
  | none => exact ⟨rfl, rfl, rfl, rfl⟩
  | some w => obtain ⟨w, n⟩ := w; exact ⟨by simp [evView, Ev.commit], rfl, rfl, rfl⟩

theorem ev_laws : Laws ev evView (fun _ => True) where
  err_eq s := rfl
  fault s h := ⟨h, rfl, rfl⟩
  refill s n h hn he := by
    have he' : s.err = false := he
    obtain ⟨c1, c2, c3, c4⟩ := commit_out s
    have hn' : ¬ n = 0 := by omega
    have e0 : ev.refill s n = s.commit.reserve n := by
      show Ev.refill s n = _
      unfold Ev.refill
      rw [he', if_neg (by simp), if_neg hn']
    cases hq : s.commit.answers.headD (some 0) with
    | none =>
      have e : ev.refill s n = (false, { s.commit with answers := s.commit.answers.drop 1 }) := by rw [e0]; unfold Ev.reserve; rw [hq]
      rw [e]
      refine ⟨trivial, ?_, ?_, (by intro h; cases h), ?_⟩
      · rw [← c1]; rfl
      · show s.commit.err = false; rw [c3]; exact he'
      · intro hp
        rw [c4] at hq
        exfalso
        cases ha : s.answers with
        | nil => rw [ha] at hq; cases hq
        | cons a l => rw [ha] at hq; exact hp a (by rw [ha]; simp) hq
    | some x =>
      have e : ev.refill s n = (true, { s.commit with block := some ([], n + x), answers := s.commit.answers.drop 1 }) := by rw [e0]; unfold Ev.reserve; rw [hq]
      rw [e]
      refine ⟨trivial, ?_, ?_, ?_, ?_⟩
      · rw [← c1]; simp [evView, c2]
      · show s.commit.err = false; rw [c3]; exact he'
      · intro _; show n ≤ n + x; omega
      · intro hp
        refine ⟨rfl, ?_⟩
        intro a ha
        have : a ∈ s.commit.answers.drop 1 := ha
        rw [c4] at this
        exact hp a (List.mem_of_mem_drop this)
  store s bs _ hl hb := by
    obtain ⟨b, bl, e, a⟩ := s
    cases bl with
    | none =>
      exfalso
      have : bs.length ≤ 0 := hl
      exact hb (List.length_eq_zero_iff.mp (by omega))
    | some w => obtain ⟨w, n⟩ := w; exact ⟨trivial, by simp [evView, ev, Ev.store], rfl, fun hp => hp⟩
  store_nil s _ := by
    obtain ⟨b, bl, e, a⟩ := s
    cases bl with
    | none => exact ⟨trivial, rfl, rfl, fun hp => hp⟩
    | some w => obtain ⟨w, n⟩ := w; exact ⟨trivial, by simp [evView, ev, Ev.store], rfl, fun hp => hp⟩

section
variable {σ : Type} {k : Kind σ} {v : View σ} {good : σ → Prop} (L : Laws k v good)
include L

theorem ensure_law (s : σ) (n : Nat) (h : good s) (he : v.err s = false) : good (k.ensure s n).2 ∧ v.out (k.ensure s n).2 = v.out s ∧
    v.err (k.ensure s n).2 = false ∧ ((k.ensure s n).1 = true → n ≤ k.size (k.ensure s n).2) ∧ (v.plenty s → (k.ensure s n).1 = true ∧ v.plenty (k.ensure s n).2) := by
  unfold Kind.ensure
  rw [L.err_eq, he]
  simp only [Bool.false_eq_true, if_false]
  split
  · rename_i hn
    exact ⟨h, rfl, he, fun _ => hn, fun hp => ⟨rfl, hp⟩⟩
  · exact L.refill s n h (by omega) he

theorem ensure_err (s : σ) (n : Nat) (he : v.err s = true) : k.ensure s n = (false, s) := by
  unfold Kind.ensure
  rw [L.err_eq, he]
  rfl

theorem store_any (s : σ) (bs : List Byte) (h : good s) (hl : bs.length ≤ k.size s) : good (k.store s bs) ∧ v.out (k.store s bs) = v.out s ++ bs ∧
    v.err (k.store s bs) = v.err s ∧ (v.plenty s → v.plenty (k.store s bs)) := by
  by_cases hb : bs = []
  · subst hb
    rw [List.append_nil]
    exact L.store_nil s h
  · exact L.store s bs h hl hb

/-- one item: all of it, or a fault and nothing -/
theorem write_law (s : σ) (bs : List Byte) (h : good s) : good (k.write s bs) ∧
    (v.err s = true → v.out (k.write s bs) = v.out s ∧ v.err (k.write s bs) = true) ∧
    (v.err s = false → (v.out (k.write s bs) = v.out s ++ bs ∧ v.err (k.write s bs) = false) ∨
      (v.out (k.write s bs) = v.out s ∧ v.err (k.write s bs) = true ∧ ¬ v.plenty s)) ∧
    (v.err s = false → v.plenty s → v.plenty (k.write s bs)) := by
  unfold Kind.write
  cases he : v.err s
  · obtain ⟨e1, e2, e3, e4, e5⟩ := ensure_law L s bs.length h he
    cases hr : (k.ensure s bs.length).1
    · simp only [hr, Bool.false_eq_true, if_false]
      obtain ⟨f1, f2, f3⟩ := L.fault _ e1
      have hnp : ¬ v.plenty s := fun hp => by rw [(e5 hp).1] at hr; cases hr
      exact ⟨f1, (fun h => by cases h), fun _ => Or.inr ⟨by rw [f2, e2], f3, hnp⟩, fun _ hp => absurd hp hnp⟩
    · simp only [hr, if_true]
      obtain ⟨s1, s2, s3, s4⟩ := store_any L _ bs e1 (e4 hr)
      exact ⟨s1, (fun h => by cases h), fun _ => Or.inl ⟨by rw [s2, e2], by rw [s3, e3]⟩, fun _ hp => s4 (e5 hp).2⟩
  · rw [ensure_err L s _ he]
    simp only [Bool.false_eq_true, if_false]
    obtain ⟨f1, f2, f3⟩ := L.fault _ h
    exact ⟨f1, fun _ => ⟨f2, f3⟩, (fun h => by cases h), (fun h => by cases h)⟩

theorem writes_law (l : List (List Byte)) : ∀ s, good s → good (k.writes s l) ∧
    (v.err s = true → v.out (k.writes s l) = v.out s ∧ v.err (k.writes s l) = true) ∧
    (v.err s = false → (v.err (k.writes s l) = false ∧ v.out (k.writes s l) = v.out s ++ l.flatten) ∨
      (v.err (k.writes s l) = true ∧ ¬ v.plenty s ∧ ∃ a b, l = a ++ b ∧ b ≠ [] ∧ v.out (k.writes s l) = v.out s ++ a.flatten)) := by
  induction l with
  | nil =>
    intro s h
    exact ⟨h, fun he => ⟨rfl, he⟩, fun he => Or.inl ⟨he, by simp [Kind.writes]⟩⟩
  | cons bs l ih =>
    intro s h
    obtain ⟨w1, w2, w3, w4⟩ := write_law L s bs h
    obtain ⟨i1, i2, i3⟩ := ih (k.write s bs) w1
    have e : k.writes s (bs :: l) = k.writes (k.write s bs) l := rfl
    rw [e]
    refine ⟨i1, ?_, ?_⟩
    · intro he
      obtain ⟨a, b⟩ := w2 he
      obtain ⟨c, d⟩ := i2 b
      exact ⟨by rw [c, a], d⟩
    · intro he
      rcases w3 he with ⟨a, b⟩ | ⟨a, b, c⟩
      · rcases i3 b with ⟨d, f⟩ | ⟨d, f, x, y, hx, hy, hz⟩
        · exact Or.inl ⟨d, by rw [f, a]; simp⟩
        · exact Or.inr ⟨d, fun hp => f (w4 he hp), bs :: x, y, by rw [hx]; rfl, hy, by rw [hz, a]; simp⟩
      · obtain ⟨d, f⟩ := i2 b
        exact Or.inr ⟨f, c, [], bs :: l, rfl, by simp, by rw [d, a]; simp⟩

theorem flatten_len (sz : Nat) : ∀ es : List (List Byte), (∀ e ∈ es, e.length = sz) → es.flatten.length = es.length * sz := by
  intro es
  induction es with
  | nil => intro _; simp
  | cons e es ih =>
    intro h
    rw [List.flatten_cons, List.length_append, ih (fun x hx => h x (by simp [hx])), h e (by simp), List.length_cons, Nat.add_mul]
    omega

theorem array_law (sz : Nat) (hsz : 0 < sz) : ∀ (fuel : Nat) (es : List (List Byte)) (s : σ), es.length ≤ fuel → (∀ e ∈ es, e.length = sz) → good s →
    v.err s = false → good (k.array sz fuel s es) ∧
    ((v.err (k.array sz fuel s es) = false ∧ v.out (k.array sz fuel s es) = v.out s ++ es.flatten) ∨
      (v.err (k.array sz fuel s es) = true ∧ ¬ v.plenty s ∧ ∃ a b, es = a ++ b ∧ b ≠ [] ∧ v.out (k.array sz fuel s es) = v.out s ++ a.flatten)) := by
  intro fuel
  induction fuel with
  | zero =>
    intro es s hf _ h he
    have : es = [] := List.length_eq_zero_iff.mp (by omega)
    subst this
    exact ⟨h, Or.inl ⟨he, by simp [Kind.array]⟩⟩
  | succ fuel ih =>
    intro es s hf hes h he
    unfold Kind.array
    by_cases hn : es = []
    · subst hn
      simp only [if_true]
      exact ⟨h, Or.inl ⟨he, by simp⟩⟩
    · simp only [hn, if_false]
      obtain ⟨e1, e2, e3, e4, e5⟩ := ensure_law L s sz h he
      cases hr : (k.ensure s sz).1
      · simp only [Bool.false_eq_true, if_false]
        obtain ⟨f1, f2, f3⟩ := L.fault _ e1
        have hnp : ¬ v.plenty s := fun hp => by rw [(e5 hp).1] at hr; cases hr
        exact ⟨f1, Or.inr ⟨f3, hnp, [], es, rfl, hn, by rw [f2, e2]; simp⟩⟩
      · simp only [if_true]
        have hs := e4 hr
        have hpos : 0 < es.length := List.length_pos_iff.mpr hn
        generalize hm : chunk (k.size (k.ensure s sz).2) sz es.length = m
        have hm1 : 1 ≤ m := by
          rw [← hm]
          unfold chunk
          rw [Nat.le_div_iff_mul_le hsz, Nat.one_mul]
          have : 1 * sz ≤ es.length * sz := Nat.mul_le_mul_right _ hpos
          omega
        have hm2 : m * sz ≤ k.size (k.ensure s sz).2 := by
          rw [← hm]
          unfold chunk
          exact Nat.le_trans (Nat.div_mul_le_self _ _) (Nat.min_le_left _ _)
        have hlen : (es.take m).flatten.length ≤ k.size (k.ensure s sz).2 := by
          rw [flatten_len L sz _ (fun e he => hes e (List.mem_of_mem_take he)), List.length_take]
          exact Nat.le_trans (Nat.mul_le_mul_right _ (Nat.min_le_left _ _)) hm2
        obtain ⟨s1, s2, s3, s4⟩ := store_any L _ _ e1 hlen
        obtain ⟨i1, i2⟩ := ih (es.drop m) _ (by rw [List.length_drop]; omega) (fun e he => hes e (List.mem_of_mem_drop he)) s1 (by rw [s3, e3])
        refine ⟨i1, ?_⟩
        rcases i2 with ⟨a, b⟩ | ⟨a, b, x, y, hx, hy, hz⟩
        · left
          refine ⟨a, ?_⟩
          rw [b, s2, e2, List.append_assoc, ← List.flatten_append, List.take_append_drop]
        · right
          refine ⟨a, fun hp => b (s4 (e5 hp).2), es.take m ++ x, y, ?_, hy, ?_⟩
          · rw [List.append_assoc, ← hx, List.take_append_drop]
          · rw [hz, s2, e2, List.append_assoc, ← List.flatten_append]
end

/-! ### the two kinds -/

/-- What is written to a VectorOutBuf, whatever the vector held before and however it grows, is what was given to it, in that order, up to `consumed()`; or memory
was refused, and the buffer is marked, and holds what came before. -/
theorem C121_vector (buf : List Byte) (answers : List Bool) (l : List (List Byte)) :
    let s := vec.writes { backing := buf, answers := answers } l
    (s.err = false ∧ s.written = l.flatten) ∨
      (s.err = true ∧ (∃ a ∈ answers, a = false) ∧ ∃ a b, l = a ++ b ∧ b ≠ [] ∧ s.written = a.flatten) := by
  intro s
  obtain ⟨-, -, h⟩ := writes_law vec_laws l { backing := buf, answers := answers } (Nat.zero_le _)
  rcases h rfl with ⟨a, b⟩ | ⟨a, b, x, y, hx, hy, hz⟩
  · exact Or.inl ⟨a, by simpa [vecView, Vec.written] using b⟩
  · refine Or.inr ⟨a, ?_, x, y, hx, hy, by simpa [vecView, Vec.written] using hz⟩
    apply Classical.byContradiction
    intro hne
    apply b
    intro c hc
    cases c with
    | true => rfl
    | false => exact absurd ⟨false, hc, rfl⟩ hne

example : (vec.writes { backing := [9, 9, 9] } [[1, 2], [3, 4, 5]]).written = [1, 2, 3, 4, 5] := by decide

/-- The same of an EvOutBuf, whatever sizes the blocks have which the evbuffer gives: when the buffer is destroyed the evbuffer holds what it did, and then what was
written. -/
theorem C121_ev (old : List Byte) (isize : Nat) (answers : List (Option Nat)) (hp : ∀ a ∈ answers, a ≠ none) (l : List (List Byte)) :
    let s := ev.writes (Ev.make old isize answers) l
    s.err = false ∧ s.finish = old ++ l.flatten := by
  intro s
  have hm : evView.out (Ev.make old isize answers) = old ∧ (Ev.make old isize answers).err = false ∧ evView.plenty (Ev.make old isize answers) := by
    unfold Ev.make
    by_cases h0 : isize = 0
    · subst h0; exact ⟨by simp [Ev.refill, Ev.commit, evView], rfl, hp⟩
    · obtain ⟨-, b, c, -, d⟩ := ev_laws.refill { backing := old, answers := answers } isize trivial (by omega) rfl
      exact ⟨by rw [show (Ev.refill { backing := old, answers := answers } isize).2 = (ev.refill { backing := old, answers := answers } isize).2 from rfl, b]; simp [evView], c, (d hp).2⟩
  obtain ⟨m1, m2, m3⟩ := hm
  obtain ⟨-, -, h⟩ := writes_law ev_laws l (Ev.make old isize answers) trivial
  rcases h m2 with ⟨a, b⟩ | ⟨-, b, -⟩
  · refine ⟨a, ?_⟩
    have ha : s.err = false := a
    have hb : evView.out s = old ++ l.flatten := by rw [← m1]; exact b
    unfold Ev.finish Ev.refill
    rw [ha]
    simp only [Bool.false_eq_true, if_false, if_true]
    obtain ⟨c1, c2, -, -⟩ := commit_out s
    rw [← hb, ← c1]
    simp [evView, c2]
  · exact absurd m3 b

/-- blocks of odd sizes -/
example : (ev.writes (Ev.make [7] 1 [some 1, some 0, some 5]) [[1], [2, 3], [4], [5, 6]]).finish = [7, 1, 2, 3, 4, 5, 6] := by decide

/-- An array is written in pieces, as many elements at a time as there is room for.  What comes out is the elements one after the other, for every size of the pieces. -/
theorem C121_array_ev (old : List Byte) (s : Ev) (hs : s.err = false) (hp : ∀ a ∈ s.answers, a ≠ none) (ho : evView.out s = old) (sz : Nat) (hsz : 0 < sz)
    (es : List (List Byte)) (he : ∀ e ∈ es, e.length = sz) :
    (ev.array sz es.length s es).err = false ∧ (ev.array sz es.length s es).finish = old ++ es.flatten := by
  obtain ⟨-, h⟩ := array_law ev_laws sz hsz es.length es s (Nat.le_refl _) he trivial hs
  rcases h with ⟨a, b⟩ | ⟨-, b, -⟩
  · refine ⟨a, ?_⟩
    have ha : (ev.array sz es.length s es).err = false := a
    unfold Ev.finish Ev.refill
    rw [ha]
    simp only [Bool.false_eq_true, if_false, if_true]
    obtain ⟨c1, c2, -, -⟩ := commit_out (ev.array sz es.length s es)
    rw [← ho, ← b, ← c1]
    simp [evView, c2]
  · exact absurd hp b

theorem C121_array_vector (s : Vec) (hs : s.err = false) (hpos : s.pos ≤ s.backing.length) (hp : ∀ a ∈ s.answers, a = true) (sz : Nat) (hsz : 0 < sz)
    (es : List (List Byte)) (he : ∀ e ∈ es, e.length = sz) :
    (vec.array sz es.length s es).err = false ∧ (vec.array sz es.length s es).written = s.written ++ es.flatten := by
  obtain ⟨-, h⟩ := array_law vec_laws sz hsz es.length es s (Nat.le_refl _) he hpos hs
  rcases h with ⟨a, b⟩ | ⟨-, b, -⟩
  · exact ⟨a, b⟩
  · exact absurd hp b

example : (ev.array 2 5 { block := some ([8], 3), answers := [some 1, some 3] } [[1, 2], [3, 4], [5, 6], [7, 8], [9, 10]]).finish = [8, 1, 2, 3, 4, 5, 6, 7, 8, 9, 10] := by decide

/-- If memory is refused, the array is cut between two elements, and the buffer is marked. -/
theorem C121_array_refused (s : Ev) (hs : s.err = false) (sz : Nat) (hsz : 0 < sz) (es : List (List Byte)) (he : ∀ e ∈ es, e.length = sz) :
    ∃ a b, es = a ++ b ∧ evView.out (ev.array sz es.length s es) = evView.out s ++ a.flatten ∧ ((ev.array sz es.length s es).err = true ↔ b ≠ []) := by
  obtain ⟨-, h⟩ := array_law ev_laws sz hsz es.length es s (Nat.le_refl _) he trivial hs
  rcases h with ⟨a, b⟩ | ⟨a, -, x, y, hx, hy, hz⟩
  · exact ⟨es, [], by simp, b, by rw [show (ev.array sz es.length s es).err = false from a]; simp⟩
  · exact ⟨x, y, hx, hz, by rw [show (ev.array sz es.length s es).err = true from a]; simp [hy]⟩

/-- Both are what the model of the encoders (Model/Wire) takes them for: a buffer without limit. -/
theorem C121_wire (k : Kind σ) (v : View σ) (good : σ → Prop) (L : Laws k v good) (s : σ) (o : Wire.Out) (bs : List Byte) (h : good s) (hp : v.plenty s)
    (h1 : o.room = none) (h2 : o.data = v.out s) (h3 : o.err = v.err s) :
    (o.write bs).room = none ∧ (o.write bs).data = v.out (k.write s bs) ∧ (o.write bs).err = v.err (k.write s bs) := by
  obtain ⟨-, w2, w3, -⟩ := write_law L s bs h
  unfold Wire.Out.write Wire.Out.ensure
  rw [h1, h3]
  cases he : v.err s
  · rcases w3 he with ⟨a, b⟩ | ⟨-, -, c⟩
    · simp [Wire.Out.put, h1, h2, a, b, h3, he]
    · exact absurd hp c
  · obtain ⟨a, b⟩ := w2 he
    simp [Wire.Out.fault, h1, h2, a, b]

theorem C121_wire_vector (s : Vec) (o : Wire.Out) (bs : List Byte) (h : s.pos ≤ s.backing.length) (hp : ∀ a ∈ s.answers, a = true)
    (h1 : o.room = none) (h2 : o.data = s.written) (h3 : o.err = s.err) :
    (o.write bs).data = (vec.write s bs).written ∧ (o.write bs).err = (vec.write s bs).err :=
  (C121_wire vec vecView _ vec_laws s o bs h hp h1 h2 h3).2

theorem C121_wire_ev (s : Ev) (o : Wire.Out) (bs : List Byte) (hp : ∀ a ∈ s.answers, a ≠ none)
    (h1 : o.room = none) (h2 : o.data = evView.out s) (h3 : o.err = s.err) :
    (o.write bs).data = evView.out (ev.write s bs) ∧ (o.write bs).err = (ev.write s bs).err :=
  (C121_wire ev evView _ ev_laws s o bs trivial hp h1 h2 h3).2

theorem write_block (s : Ev) (bs : List Byte) (h : s.err = true → s.block = none) : (ev.write s bs).err = true → (ev.write s bs).block = none := by
  unfold Kind.write
  cases he : s.err
  · by_cases hn : bs.length ≤ s.size
    · have e : ev.ensure s bs.length = (true, s) := by
        unfold Kind.ensure
        show (if s.err = true then _ else if bs.length ≤ s.size then _ else _) = _
        rw [he, if_neg (by simp), if_pos hn]
      rw [e]
      show (Ev.store s bs).err = true → _
      unfold Ev.store
      intro hq
      cases hb : s.block with
      | none => rw [hb] at hq; exact absurd hq (by show ¬ s.err = true; rw [he]; simp)
      | some w => rw [hb] at hq; exact absurd hq (by show ¬ s.err = true; rw [he]; simp)
    · have e : ev.ensure s bs.length = s.commit.reserve bs.length := by
        unfold Kind.ensure
        show (if s.err = true then _ else if bs.length ≤ s.size then _ else Ev.refill s bs.length) = _
        rw [he, if_neg (by simp), if_neg hn]
        unfold Ev.refill
        rw [he, if_neg (by simp), if_neg (by intro h0; rw [h0] at hn; omega)]
      rw [e]
      obtain ⟨-, c2, c3, -⟩ := commit_out s
      unfold Ev.reserve
      cases s.commit.answers.headD (some 0) with
      | none => exact fun _ => c2
      | some x => intro hq; exact absurd hq (by show ¬ s.commit.err = true; rw [c3, he]; simp)
  · have e : ev.ensure s bs.length = (false, s) := ensure_err ev_laws s _ he
    rw [e]
    exact fun _ => h he

/-- If memory is refused to an EvOutBuf it is marked, and the evbuffer holds what was written before that and nothing of what was not written entirely. -/
theorem C121_ev_refused (old : List Byte) (answers : List (Option Nat)) (l : List (List Byte)) :
    let s := ev.writes { backing := old, answers := answers } l
    ∃ a b, l = a ++ b ∧ s.finish = old ++ a.flatten ∧ (s.err = true ↔ b ≠ []) := by
  intro s
  have hb : s.err = true → s.block = none := by
    have key : ∀ (l : List (List Byte)) (t : Ev), (t.err = true → t.block = none) → (ev.writes t l).err = true → (ev.writes t l).block = none := by
      intro l
      induction l with
      | nil => exact fun t h => h
      | cons bs l ih => exact fun t h => ih _ (write_block t bs h)
    exact key l _ (by intro h; cases h)
  obtain ⟨-, -, h⟩ := writes_law ev_laws l { backing := old, answers := answers } trivial
  have hout : evView.out { backing := old, answers := answers } = old := by simp [evView]
  rcases h rfl with ⟨x, y⟩ | ⟨x, -, a, b, hx, hy, hz⟩
  · have ha : s.err = false := x
    refine ⟨l, [], by simp, ?_, by rw [ha]; simp⟩
    unfold Ev.finish Ev.refill
    rw [ha]
    simp only [Bool.false_eq_true, if_false, if_true]
    obtain ⟨c1, c2, -, -⟩ := commit_out s
    rw [← hout, ← y]
    show s.commit.backing = evView.out s
    rw [← c1]
    simp [evView, c2]
  · have ha : s.err = true := x
    refine ⟨a, b, hx, ?_, by rw [ha]; simp [hy]⟩
    unfold Ev.finish Ev.refill
    rw [ha]
    simp only [if_true]
    rw [← hout, ← hz]
    show s.backing = evView.out s
    simp [evView, hb ha]

example : (ev.writes { answers := [some 0, none] } [[1, 2, 3, 4], [5]]).finish = [1, 2, 3, 4] := by decide

/-- After a fault which an encoder finds, an EvOutBuf does not hand on what is in its block: the evbuffer holds the beginning of what was written. -/
theorem C121_fault (s : Ev) : (ev.fault s).finish = s.backing ∧ ∃ rest, evView.out s = (ev.fault s).finish ++ rest := by
  have : (ev.fault s).finish = s.backing := by unfold Ev.finish Ev.refill; rfl
  exact ⟨this, _, by rw [this]; rfl⟩

example : (ev.fault (ev.writes { backing := [7], answers := [some 0, some 3] } [[1, 2], [3, 4]])).finish = [7, 1, 2] := by decide

/-! ### skip -/

/-- skip() of bytes which are to be filled in later, if there is room for them or no room at all -/
theorem C121_skip_partial (s : Vec) (i : Nat) (h : s.pos ≤ s.backing.length) (he : s.err = false) (hp : ∀ a ∈ s.answers, a = true)
    (hr : i ≤ s.backing.length - s.pos ∨ s.pos = s.backing.length) :
    (s.skip i).err = false ∧ (s.skip i).pos = s.pos + i ∧ (s.skip i).pos ≤ (s.skip i).backing.length ∧ (s.skip i).backing.take s.pos = s.written := by
  unfold Vec.skip
  by_cases hi : i ≤ vec.size s
  · simp only [hi, if_true]
    have hi' : i ≤ s.backing.length - s.pos := hi
    exact ⟨he, trivial, by omega, rfl⟩
  · have hi' : ¬ i ≤ s.backing.length - s.pos := hi
    have hq : s.pos = s.backing.length := by omega
    have hg := roundUp_ge i
    simp only [hi, if_false, Vec.refill, he, nextOk_plenty _ hp, Bool.false_eq_true, if_true, List.length_append, List.length_replicate, Vec.written]
    refine ⟨trivial, by rw [hq], by omega, ?_⟩
    rw [List.take_append_of_le_length h]

/-- Otherwise it skips too much: what there was room for, and then all of it again. -/
theorem C121_skip (s : Vec) (i : Nat) (he : s.err = false) (hp : ∀ a ∈ s.answers, a = true)
    (hi : s.backing.length - s.pos < i) (h1 : s.pos ≤ s.backing.length) : (s.skip i).pos = s.pos + i + (s.backing.length - s.pos) := by
  have hi' : ¬ i ≤ vec.size s := by show ¬ i ≤ s.backing.length - s.pos; omega
  unfold Vec.skip
  simp only [hi', if_false, Vec.refill, he, nextOk_plenty _ hp, Bool.false_eq_true, if_true]
  omega

theorem C121_skip_false : ¬ ∀ (s : Vec) (i : Nat), s.pos ≤ s.backing.length → s.err = false → (s.skip i).pos = s.pos + i :=
  fun h => absurd (h { backing := [0, 0, 0] } 8 (by decide) rfl) (by decide)

end Pvxs.Props.OutBuf
