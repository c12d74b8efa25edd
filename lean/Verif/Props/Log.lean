import Verif.Spec.Log
/-
C51: the level of a logger.
-/
namespace Pvxs.Props.Lg
open Log Spec.Lg

theorem sets_snoc (ops : List Op) (op : Op) : sets (ops ++ [op]) = sets ops ++ sets [op] := by
  induction ops with
  | nil => rfl
  | cons o ops ih =>
    cases o <;> simp [sets, ih]

theorem steady_prefix {l l' : List (Str × Int)} (h : Steady (l ++ l')) : Steady l := by
  intro p q hpq hs
  exact h p q hpq (hs.trans (List.Sublist.map _ (List.sublist_append_left l l')))

/-- if an earlier pattern is set again, it was the last one -/
theorem steady_last {l : List (Str × Int)} {p : Str} {x : Int} (h : Steady (l ++ [(p, x)])) (hp : p ∈ l.map (·.1)) :
    ∃ y, l.getLast? = some (p, y) := by
  cases hl : l.getLast? with
  | none =>
    rw [List.getLast?_eq_none_iff] at hl
    subst hl; cases hp
  | some z =>
    obtain ⟨q, y⟩ := z
    obtain ⟨l', rfl⟩ := List.getLast?_eq_some_iff.mp hl
    by_cases hpq : p = q
    · exact ⟨y, by rw [hpq]⟩
    · exfalso
      refine h p q hpq ?_
      rw [List.map_append, List.map_append, List.mem_append] at *
      rcases hp with hp | hp
      · have h1 : [p].Sublist (l'.map (·.1)) := List.singleton_sublist.mpr hp
        exact (h1.append (List.Sublist.refl [q])).append (List.Sublist.refl [p])
      · simp only [List.map_cons, List.map_nil, List.mem_singleton] at hp
        exact absurd hp hpq

/-- what holds for a name after some operations without `clear` -/
structure Inv (glob : Str → Str → Bool) (n : Str) (r : List (Str × Int)) (s : State) : Prop where
  nodup : (s.config.map (·.1)).Nodup
  last : (s.config.filter fun x => glob n x.1).getLast? = r.getLast?
  known : ∀ p, glob n p = true → (p ∈ s.config.map (·.1) ↔ p ∈ r.map (·.1))
  used : ∀ x ∈ s.loggers, x.1 = n → x.2 = match r.getLast? with | some y => y.2 | none => warn

theorem fold_last (glob : Str → Str → Bool) (n : Str) (c : List (Str × Int)) (d : Int) :
    c.foldl (fun lvl tup => if glob n tup.1 then tup.2 else lvl) d =
      match (c.filter fun x => glob n x.1).getLast? with | some y => y.2 | none => d := by
  induction c generalizing d with
  | nil => rfl
  | cons t c ih =>
    rw [List.foldl_cons, ih, List.filter_cons]
    by_cases h : glob n t.1 = true
    · rw [if_pos h, if_pos h]
      cases hc : (c.filter fun x => glob n x.1) with
      | nil => rfl
      | cons a b =>
        rw [List.getLast?_cons_cons]
        cases hx : (a :: b).getLast? with
        | none => simp at hx
        | some y => rfl
    · rw [if_neg h, if_neg h]

theorem update_map (p : Str) (l : Int) (c : List (Str × Int)) : (update p l c).map (·.1) = c.map (·.1) := by
  induction c with
  | nil => rfl
  | cons t c ih =>
    unfold update
    split
    · rename_i h; simp [h]
    · simp [ih]

/-- the entry of `p` is the last relevant one, and is updated -/
theorem update_last (glob : Str → Str → Bool) (n p : Str) (l y : Int) (c : List (Str × Int)) (hn : (c.map (·.1)).Nodup)
    (hl : (c.filter fun x => glob n x.1).getLast? = some (p, y)) :
    ((update p l c).filter fun x => glob n x.1).getLast? = some (p, l) := by
  induction c with
  | nil => cases hl
  | cons t c ih =>
    rw [List.map_cons, List.nodup_cons] at hn
    have hg : glob n p = true := by
      have := List.mem_of_getLast? hl
      exact (List.mem_filter.mp this).2
    unfold update
    by_cases ht : t.1 = p
    · rw [if_pos ht]
      -- no other entry of p, so it is the last
      rw [List.filter_cons, if_pos (by rw [ht]; exact hg)] at hl
      rw [List.filter_cons, if_pos hg]
      cases hc : (c.filter fun x => glob n x.1) with
      | nil => rfl
      | cons a b =>
        rw [hc, List.getLast?_cons_cons] at hl
        have hm := List.mem_of_getLast? hl
        rw [← hc] at hm
        have := List.mem_map_of_mem (f := (·.1)) (List.mem_filter.mp hm).1
        rw [ht] at hn
        exact absurd this hn.1
    · rw [if_neg ht]
      have key : ∀ d : List (Str × Int), d.getLast? = some (p, y) ∨ d.getLast? = some (p, l) → (t :: d).getLast? = d.getLast? := by
        intro d hd
        cases d with
        | nil => rcases hd with h | h <;> cases h
        | cons a b => rw [List.getLast?_cons_cons]
      rw [List.filter_cons] at hl ⊢
      split at hl
      · rename_i hgt
        rw [if_pos hgt]
        cases hc : (c.filter fun x => glob n x.1) with
        | nil =>
          rw [hc] at hl
          simp only [List.getLast?_singleton, Option.some.injEq] at hl
          rw [hl] at ht
          exact absurd rfl ht
        | cons a b =>
          rw [hc, List.getLast?_cons_cons, ← hc] at hl
          have := ih hn.2 hl
          rw [key _ (Or.inr this), this]
      · rename_i hgt
        rw [if_neg hgt]
        exact ih hn.2 hl

theorem filter_update_other (glob : Str → Str → Bool) (n p : Str) (l : Int) (c : List (Str × Int)) (h : glob n p = false) :
    (update p l c).filter (fun x => glob n x.1) = c.filter fun x => glob n x.1 := by
  induction c with
  | nil => rfl
  | cons t c ih =>
    unfold update
    split
    · rename_i ht
      rw [List.filter_cons, List.filter_cons, ht, h]
      simp
    · rw [List.filter_cons, List.filter_cons, ih]

theorem inv_use {glob : Str → Str → Bool} {n : Str} {r : List (Str × Int)} {s : State} (h : Inv glob n r s) (m : Str) :
    Inv glob n r (init glob s m) := by
  refine ⟨h.nodup, h.last, h.known, ?_⟩
  intro x hx hn
  simp only [init] at hx
  rcases List.mem_append.mp hx with hx | hx
  · exact h.used x hx hn
  · rw [List.mem_singleton] at hx
    subst hx
    simp only at hn
    subst hn
    simp only [initial]
    split
    · rename_i l hl
      have : l.1 = m := by simpa using List.find?_some hl
      exact h.used l (List.mem_of_find?_eq_some hl) this
    · rw [fold_last, h.last]

theorem inv_set {glob : Str → Str → Bool} {n : Str} {r : List (Str × Int)} {s : State} (h : Inv glob n r s) (p : Str) (l0 l : Int)
    (hl : l = if l0 ≤ 0 then 1 else l0)
    (hs : Steady (if glob n p then r ++ [(p, l)] else r)) :
    Inv glob n (if glob n p then r ++ [(p, l)] else r) (Log.set glob s p l0) := by
  unfold Log.set
  simp only [← hl]
  cases hf : s.config.find? (·.1 = p) with
  | none =>
    have hnew : p ∉ s.config.map (·.1) := by
      intro hp
      obtain ⟨x, hx, hxp⟩ := List.mem_map.mp hp
      have := List.find?_eq_none.mp hf x hx
      simp only [decide_eq_true_eq] at this
      exact this hxp
    simp only
    by_cases hg : glob n p = true
    · rw [if_pos hg]
      refine ⟨?_, ?_, ?_, ?_⟩
      · rw [List.map_append, List.nodup_append]
        refine ⟨h.nodup, by simp, ?_⟩
        intro a ha b hb
        simp only [List.map_cons, List.map_nil, List.mem_singleton] at hb
        subst hb
        exact fun hx => hnew (hx ▸ ha)
      · simp [List.filter_append, hg]
      · intro q hq
        rw [List.map_append, List.map_append, List.mem_append, List.mem_append, h.known q hq]
      · intro x hx hn
        obtain ⟨y, _, rfl⟩ := List.mem_map.mp hx
        rw [List.getLast?_concat]
        by_cases hy : glob y.1 p = true
        · rw [if_pos hy]
        · rw [if_neg hy] at hn
          rw [hn] at hy
          exact absurd hg hy
    · rw [if_neg hg]
      refine ⟨?_, ?_, ?_, ?_⟩
      · rw [List.map_append, List.nodup_append]
        refine ⟨h.nodup, by simp, ?_⟩
        intro a ha b hb
        simp only [List.map_cons, List.map_nil, List.mem_singleton] at hb
        subst hb
        exact fun hx => hnew (hx ▸ ha)
      · rw [List.filter_append]
        simp only [List.filter_cons, hg, List.filter_nil]
        simpa using h.last
      · intro q hq
        rw [List.map_append, List.mem_append, h.known q hq]
        constructor
        · rintro (hx | hx)
          · exact hx
          · simp only [List.map_cons, List.map_nil, List.mem_singleton] at hx
            subst hx; exact absurd hq hg
        · exact Or.inl
      · intro x hx hn
        obtain ⟨y, hy, rfl⟩ := List.mem_map.mp hx
        by_cases hyg : glob y.1 p = true
        · rw [if_pos hyg] at hn
          simp only at hn
          rw [hn] at hyg
          exact absurd hyg hg
        · rw [if_neg hyg] at hn ⊢
          exact h.used y hy hn
  | some conf =>
    have hcp : conf.1 = p := by simpa using List.find?_some hf
    have hcm := List.mem_of_find?_eq_some hf
    have hin : p ∈ s.config.map (·.1) := hcp ▸ List.mem_map_of_mem hcm
    simp only
    by_cases hg : glob n p = true
    · rw [if_pos hg] at hs ⊢
      have hr := (h.known p hg).mp hin
      obtain ⟨y, hy⟩ := steady_last hs hr
      have hlast := h.last
      rw [hy] at hlast
      have hconf : conf.2 = y := by
        have hm := List.mem_of_getLast? hlast
        have hm := (List.mem_filter.mp hm).1
        have hnd := h.nodup
        obtain ⟨i, hi, e1⟩ := List.getElem_of_mem hm
        obtain ⟨j, hj, e2⟩ := List.getElem_of_mem hcm
        have e1' : (s.config.map (·.1))[i]? = some p := by rw [List.getElem?_map, List.getElem?_eq_getElem hi, e1]; rfl
        have e2' : (s.config.map (·.1))[j]? = some p := by rw [List.getElem?_map, List.getElem?_eq_getElem hj, e2, ← hcp]; rfl
        have hij := (List.getElem?_inj (by simpa using hi) hnd).mp (e1'.trans e2'.symm)
        subst hij
        rw [e1] at e2
        rw [← e2]
      have hkn : ∀ q, glob n q = true → (q ∈ s.config.map (·.1) ↔ q ∈ (r ++ [(p, l)]).map (·.1)) := by
        intro q hq
        rw [h.known q hq, List.map_append, List.mem_append]
        constructor
        · exact Or.inl
        · rintro (hx | hx)
          · exact hx
          · simp only [List.map_cons, List.map_nil, List.mem_singleton] at hx
            subst hx; exact hr
      split
      · refine ⟨by rw [update_map]; exact h.nodup, ?_, by rw [update_map]; exact hkn, ?_⟩
        · rw [List.getLast?_concat]
          exact update_last glob n p l y s.config h.nodup hlast
        · intro x hx hn
          obtain ⟨z, _, rfl⟩ := List.mem_map.mp hx
          rw [List.getLast?_concat]
          by_cases hz : glob z.1 p = true
          · rw [if_pos hz]
          · rw [if_neg hz] at hn
            rw [hn] at hz
            exact absurd hg hz
      · rename_i heq
        have heq : conf.2 = l := Classical.byContradiction fun hx => heq hx
        have hyl : y = l := by rw [← hconf, heq]
        refine ⟨h.nodup, ?_, hkn, ?_⟩
        · rw [List.getLast?_concat, hlast, hyl]
        · intro x hx hn
          have := h.used x hx hn
          rw [hy] at this
          rw [List.getLast?_concat, this, hyl]
    · rw [if_neg hg] at hs ⊢
      split
      · refine ⟨by rw [update_map]; exact h.nodup, ?_, by rw [update_map]; exact h.known, ?_⟩
        · rw [filter_update_other glob n p l s.config (by simpa using hg)]; exact h.last
        · intro x hx hn
          obtain ⟨y, hy, rfl⟩ := List.mem_map.mp hx
          by_cases hyg : glob y.1 p = true
          · rw [if_pos hyg] at hn
            simp only at hn
            rw [hn] at hyg
            exact absurd hyg hg
          · rw [if_neg hyg] at hn ⊢
            exact h.used y hy hn
      · exact h

theorem snoc_ind {α : Type} {P : List α → Prop} (h0 : P []) (h1 : ∀ l a, P l → P (l ++ [a])) (l : List α) : P l := by
  have : ∀ n, ∀ l : List α, l.length = n → P l := by
    intro n
    induction n with
    | zero => intro l hl; rw [List.length_eq_zero_iff] at hl; rw [hl]; exact h0
    | succ n ih =>
      intro l hl
      have hne : l ≠ [] := by rintro rfl; cases hl
      rw [← List.dropLast_concat_getLast hne]
      exact h1 _ _ (ih _ (by simp [hl]))
  exact this _ l rfl

theorem inv_run (glob : Str → Str → Bool) (n : Str) (ops : List Op) :
    (∀ op ∈ ops, op ≠ .clear) → Steady (relevant glob n ops) → Inv glob n (relevant glob n ops) (run glob {} ops) := by
  induction ops using snoc_ind with
  | h0 => intro _ _; exact ⟨by simp [run], by simp [run, relevant, sets], by simp [run, relevant, sets], by simp [run]⟩
  | h1 ops op ih =>
    intro hc hs
    have hrel : relevant glob n (ops ++ [op]) = relevant glob n ops ++ relevant glob n [op] := by
      simp [relevant, sets_snoc]
    have hrun : run glob {} (ops ++ [op]) = step glob (run glob {} ops) op := by simp [run]
    have ih := ih (fun o ho => hc o (List.mem_append_left _ ho)) (by rw [hrel] at hs; exact steady_prefix hs)
    rw [hrel] at hs
    rw [hrun, hrel]
    clear hrun hrel
    cases op with
    | use m =>
      simp only [relevant, sets, List.filter_nil, List.append_nil, step] at *
      exact inv_use ih m
    | clear => exact absurd rfl (hc .clear (by simp))
    | set p l0 =>
      have he : relevant glob n ops ++ relevant glob n [.set p l0] =
          if glob n p then relevant glob n ops ++ [(p, if l0 ≤ 0 then 1 else l0)] else relevant glob n ops := by
        have e : (if l0 < 1 then (1 : Int) else l0) = if l0 ≤ 0 then 1 else l0 := by split <;> split <;> omega
        simp only [relevant, sets, List.filter_cons, List.filter_nil, e]
        split <;> simp
      rw [he] at hs ⊢
      exact inv_set ih p l0 _ rfl hs

/-- The level of a logger is that of the last call which set it, whenever the logger was first used, provided that no pattern which
concerns it is set, then another one, then the first again.  The full claim fails: `C51_depends`. -/
theorem C51_level_partial (glob : Str → Str → Bool) (ops : List Op) (hc : ∀ op ∈ ops, op ≠ .clear) (n : Str)
    (hs : Steady (relevant glob n ops)) (l : Int) (h : (n, l) ∈ (run glob {} ops).loggers) : l = level glob n ops :=
  (inv_run glob n ops hc hs).used (n, l) h rfl

theorem same_name (glob : Str → Str → Bool) (ops : List Op) (s : State)
    (h : ∀ n l l', (n, l) ∈ s.loggers → (n, l') ∈ s.loggers → l = l') :
    ∀ n l l', (n, l) ∈ (run glob s ops).loggers → (n, l') ∈ (run glob s ops).loggers → l = l' := by
  induction ops generalizing s with
  | nil => exact h
  | cons op ops ih =>
    refine ih (step glob s op) ?_
    have happ : ∀ p l, ∀ n a b, (n, a) ∈ apply glob p l s.loggers → (n, b) ∈ apply glob p l s.loggers → a = b := by
      intro p l n a b ha hb
      obtain ⟨x, hx, ex⟩ := List.mem_map.mp ha
      obtain ⟨y, hy, ey⟩ := List.mem_map.mp hb
      by_cases hg : glob n p = true
      · have hxn : x.1 = n := by
          split at ex
          · exact (Prod.mk.inj ex).1
          · rw [ex]
        have hyn : y.1 = n := by
          split at ey
          · exact (Prod.mk.inj ey).1
          · rw [ey]
        rw [hxn, if_pos hg] at ex
        rw [hyn, if_pos hg] at ey
        exact (Prod.mk.inj ex).2.symm.trans (Prod.mk.inj ey).2
      · have hxn : x = (n, a) := by
          split at ex
          · rename_i hg'; rw [(Prod.mk.inj ex).1] at hg'; exact absurd hg' hg
          · exact ex
        have hyn : y = (n, b) := by
          split at ey
          · rename_i hg'; rw [(Prod.mk.inj ey).1] at hg'; exact absurd hg' hg
          · exact ey
        subst hxn hyn
        exact h n a b hx hy
    cases op with
    | use m =>
      intro n a b ha hb
      simp only [step, init] at ha hb
      generalize hlvl : initial glob s m = lvl at ha hb
      have hnew : ∀ c, (m, c) ∈ s.loggers → c = lvl := by
        intro c hc
        cases hf : s.loggers.find? (·.1 = m) with
        | none => have := List.find?_eq_none.mp hf _ hc; simp at this
        | some l =>
          rw [initial, hf] at hlvl
          simp only at hlvl
          have hl1 : l.1 = m := by simpa using List.find?_some hf
          have hl2 := List.mem_of_find?_eq_some hf
          rw [← hlvl]
          exact h m c l.2 hc (by rw [← hl1]; exact hl2)
      rw [List.mem_append] at ha hb
      rcases ha with ha | ha <;> rcases hb with hb | hb
      · exact h n a b ha hb
      · rw [List.mem_singleton, Prod.mk.injEq] at hb
        obtain ⟨rfl, rfl⟩ := hb
        exact hnew a ha
      · rw [List.mem_singleton, Prod.mk.injEq] at ha
        obtain ⟨rfl, rfl⟩ := ha
        exact (hnew b hb).symm
      · rw [List.mem_singleton, Prod.mk.injEq] at ha hb
        rw [ha.2, hb.2]
    | set p l =>
      intro n a b
      simp only [step, Log.set]
      generalize (if l ≤ 0 then (1 : Int) else l) = lv
      split
      · exact happ _ _ n a b
      · split
        · exact happ _ _ n a b
        · exact h n a b
    | clear => exact h

/-- Loggers with the same name have the same level, always. -/
theorem C51_same_name (glob : Str → Str → Bool) (ops : List Op) (n : Str) (l l' : Int)
    (h : (n, l) ∈ (run glob {} ops).loggers) (h' : (n, l') ∈ (run glob {} ops).loggers) : l = l' :=
  same_name glob ops {} (by simp) n l l' h h'

/-- a pattern is a name, or `*` -/
def star (n p : Str) : Bool := n == p || p == [0x2a]

/-- `*` is set to Debug, "a" to Err, then `*` to Info: the level of "a" is Info if it was used before that, and Err if it is used afterwards. -/
theorem C51_depends :
    (run star {} [.use [0x61], .set [0x2a] debug, .set [0x61] err, .set [0x2a] info]).loggers = [([0x61], info)] ∧
    (run star {} [.set [0x2a] debug, .set [0x61] err, .set [0x2a] info, .use [0x61]]).loggers = [([0x61], err)] := by
  decide

/-- Setting `*` again to the level it already has does nothing: "a" stays at Err. -/
theorem C51_ignored :
    (run star {} [.use [0x61], .set [0x2a] debug, .set [0x61] err, .set [0x2a] debug]).loggers = [([0x61], err)] := by
  decide

example : Steady (relevant star [0x61] [.set [0x2a] debug, .use [0x61], .set [0x61] err, .set [0x62] info]) ∧
    (run star {} [.set [0x2a] debug, .use [0x61], .set [0x61] err, .set [0x62] info]).loggers = [([0x61], err)] := by
  refine ⟨?_, by decide⟩
  have : (relevant star [0x61] [.set [0x2a] debug, .use [0x61], .set [0x61] err, .set [0x62] info]).map (·.1) = [[0x2a], [0x61]] := by decide
  intro p q _ h
  rw [this] at h
  have := h.length_le
  simp at this

theorem dropWhile_split (c : Wire.Byte) (s : Str) :
    (c ∉ s ∧ s.dropWhile (· != c) = [] ∧ s.takeWhile (· != c) = s) ∨
    (∃ a b, s = a ++ c :: b ∧ c ∉ a ∧ s.dropWhile (· != c) = c :: b ∧ s.takeWhile (· != c) = a) := by
  induction s with
  | nil => exact Or.inl ⟨by simp, rfl, rfl⟩
  | cons x s ih =>
    by_cases hx : x = c
    · subst hx
      exact Or.inr ⟨[], s, rfl, by simp, by simp, by simp⟩
    · have hb : (x != c) = true := by simpa using hx
      rcases ih with ⟨h1, h2, h3⟩ | ⟨a, b, h1, h2, h3, h4⟩
      · exact Or.inl ⟨by simp [h1, Ne.symm hx], by rw [List.dropWhile_cons, if_pos hb, h2], by rw [List.takeWhile_cons, if_pos hb, h3]⟩
      · exact Or.inr ⟨x :: a, b, by rw [h1]; rfl, by simp [h2, Ne.symm hx], by rw [List.dropWhile_cons, if_pos hb, h3],
          by rw [List.takeWhile_cons, if_pos hb, h4]⟩

theorem split_unique {c : Wire.Byte} {a b a' b' : Str} (h : a ++ c :: b = a' ++ c :: b') (ha : c ∉ a) (ha' : c ∉ a') : a = a' ∧ b = b' := by
  induction a generalizing a' with
  | nil =>
    cases a' with
    | nil => simp at h; exact ⟨rfl, h⟩
    | cons x a' => simp only [List.nil_append, List.cons_append, List.cons.injEq] at h; simp [h.1] at ha'
  | cons x a ih =>
    cases a' with
    | nil => simp only [List.nil_append, List.cons_append, List.cons.injEq] at h; simp [h.1] at ha
    | cons y a' =>
      simp only [List.cons_append, List.cons.injEq] at h
      simp only [List.mem_cons, not_or] at ha ha'
      obtain ⟨h1, h2⟩ := ih h.2 ha.2 ha'.2
      exact ⟨by rw [h.1, h1], h2⟩

theorem name2lvl_spec (v : Str) (l : Int) : (name2lvl v = l ∧ l ≠ 0) ↔
    ((v = ascii "DEBUG" ∧ l = 50) ∨ (v = ascii "INFO" ∧ l = 40) ∨ (v = ascii "WARN" ∧ l = 30) ∨
      (v = ascii "ERR" ∧ l = 20) ∨ (v = ascii "CRIT" ∧ l = 10)) := by
  have e1 : ascii "DEBUG" = [0x44, 0x45, 0x42, 0x55, 0x47] := by decide
  have e2 : ascii "INFO" = [0x49, 0x4e, 0x46, 0x4f] := by decide
  have e3 : ascii "WARN" = [0x57, 0x41, 0x52, 0x4e] := by decide
  have e4 : ascii "ERR" = [0x45, 0x52, 0x52] := by decide
  have e5 : ascii "CRIT" = [0x43, 0x52, 0x49, 0x54] := by decide
  rw [e1, e2, e3, e4, e5]
  unfold name2lvl debug info warn err crit
  by_cases h1 : v = [0x44, 0x45, 0x42, 0x55, 0x47]
  · subst h1; simp; omega
  by_cases h2 : v = [0x49, 0x4e, 0x46, 0x4f]
  · subst h2; simp; omega
  by_cases h3 : v = [0x57, 0x41, 0x52, 0x4e]
  · subst h3; simp; omega
  by_cases h4 : v = [0x45, 0x52, 0x52]
  · subst h4; simp; omega
  by_cases h5 : v = [0x43, 0x52, 0x49, 0x54]
  · subst h5; simp; omega
  simp only [h1, h2, h3, h4, h5, if_false, false_and, or_false, iff_false]
  omega

theorem piece_spec (s : Str) :
    (∃ key lvl, Assigns s key lvl ∧ piece s = [.set key lvl]) ∨ ((∀ key lvl, ¬ Assigns s key lvl) ∧ piece s = []) := by
  rcases dropWhile_split 0x3d s with ⟨h1, h2, h3⟩ | ⟨a, b, h1, h2, h3, h4⟩
  · refine Or.inr ⟨?_, by simp [piece, h2]⟩
    rintro key lvl ⟨_, _, val, hv, _⟩
    rw [hv] at h1
    simp at h1
  · unfold piece
    simp only [h3, h4]
    by_cases he : a = [] ∨ b = []
    · rw [if_pos he]
      refine Or.inr ⟨?_, rfl⟩
      rintro key lvl ⟨hk, hk', val, hv, hval⟩
      obtain ⟨rfl, rfl⟩ := split_unique (hv.symm.trans h1) hk' h2
      rcases he with he | he
      · exact hk he
      · have := ((name2lvl_spec val lvl).mpr hval)
        rw [he] at this
        have h0 : name2lvl [] = 0 := by decide
        rw [h0] at this
        exact this.2 this.1.symm
    · rw [if_neg he]
      by_cases hl : name2lvl b = 0
      · rw [if_neg (by simp [hl])]
        refine Or.inr ⟨?_, rfl⟩
        rintro key lvl ⟨hk, hk', val, hv, hval⟩
        obtain ⟨rfl, rfl⟩ := split_unique (hv.symm.trans h1) hk' h2
        have := ((name2lvl_spec val lvl).mpr hval)
        rw [hl] at this
        exact this.2 this.1.symm
      · rw [if_pos hl]
        exact Or.inl ⟨a, name2lvl b, ⟨fun hx => he (Or.inl hx), h2, b, h1, (name2lvl_spec b _).mp ⟨rfl, hl⟩⟩, rfl⟩

/-- The settings in $PVXS_LOG are applied in order; what is not a setting is ignored. -/
theorem C51_env (ss : List Str) (hss : ss ≠ []) (hc : ∀ s ∈ ss, (0x2c : Wire.Byte) ∉ s) : Settings ss (env (joined ss)) := by
  have hp : ∀ s ss ops, Settings ss ops → Settings (s :: ss) (piece s ++ ops) := by
    intro s ss ops h
    rcases piece_spec s with ⟨key, lvl, h1, h2⟩ | ⟨h1, h2⟩
    · rw [h2]; exact .good h1 h
    · rw [h2]; exact .junk h1 h
  induction ss with
  | nil => exact absurd rfl hss
  | cons a l ih =>
    have ha := hc a (List.mem_cons_self ..)
    cases l with
    | nil =>
      have hd : (joined [a]).dropWhile (· != 0x2c) = [] ∧ (joined [a]).takeWhile (· != 0x2c) = a := by
        rcases dropWhile_split 0x2c a with ⟨_, h2, h3⟩ | ⟨x, y, h1, _⟩
        · exact ⟨h2, h3⟩
        · rw [h1] at ha; simp at ha
      rw [env]
      split
      · rw [hd.2]
        have := hp a [] [] .nil
        simpa using this
      · rename_i h; rw [hd.1] at h; cases h
    | cons b l =>
      have ih := ih (by simp) (fun s hs => hc s (List.mem_cons_of_mem _ hs))
      have hd : (joined (a :: b :: l)).dropWhile (· != 0x2c) = 0x2c :: joined (b :: l) ∧ (joined (a :: b :: l)).takeWhile (· != 0x2c) = a := by
        rcases dropWhile_split 0x2c (a ++ 0x2c :: joined (b :: l)) with ⟨h1, _, _⟩ | ⟨x, y, h1, h2, h3, h4⟩
        · simp at h1
        · obtain ⟨rfl, rfl⟩ := split_unique h1 ha h2
          exact ⟨h3, h4⟩
      rw [env]
      split
      · rename_i h; rw [hd.1] at h; cases h
      · rename_i x r h
        rw [hd.1] at h
        injection h with _ h
        rw [hd.2, ← h]
        exact hp a _ _ ih

example : joined [ascii "a*=DEBUG", ascii "junk", ascii "b=ERR"] = ascii "a*=DEBUG,junk,b=ERR" ∧
    Settings [ascii "a*=DEBUG", ascii "junk", ascii "b=ERR"] [.set (ascii "a*") 50, .set (ascii "b") 20] := by
  have h : ∀ k l, ¬ Assigns (ascii "junk") k l := by
    rintro k l ⟨_, _, v, hv, _⟩
    have : (0x3d : Wire.Byte) ∈ ascii "junk" := by rw [hv]; simp
    exact absurd this (by decide)
  refine ⟨by decide, .good ⟨by decide, by decide, ascii "DEBUG", by decide, by decide⟩ (.junk h (.good ⟨by decide, by decide, ascii "ERR", by decide, by decide⟩ .nil))⟩

end Pvxs.Props.Lg
