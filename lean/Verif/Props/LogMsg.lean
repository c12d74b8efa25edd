import Verif.Spec.LogMsg
/-
C122: messages of loggers
-/
namespace Pvxs.Props.LogMsg
open Pvxs Pvxs.LogMsg Pvxs.Spec.LogMsg

theorem put_eq (mem : Str) (off : Nat) (bs : Str) (h : off + bs.length ≤ mem.length) :
    put mem off bs = some (mem.take off ++ bs ++ mem.drop (off + bs.length)) := by unfold put; rw [if_pos h]

theorem put_none (mem : Str) (off : Nat) (bs : Str) (h : mem.length < off + bs.length) : put mem off bs = none := by
  unfold put; rw [if_neg (by omega)]

/-- memory which begins with a text, and the zero after it -/
def Holds (m t : Str) : Prop := m.length = room ∧ ∃ r, m = t ++ 0 :: r

theorem put_holds (m : Str) (hm : m.length = room) (t bs : Str) (ht : ∃ r, m = t ++ r) (h : t.length + bs.length + 1 ≤ room) :
    ∃ m', put m t.length (bs ++ [0]) = some m' ∧ Holds m' (t ++ bs) := by
  obtain ⟨r, hr⟩ := ht
  refine ⟨_, put_eq _ _ _ (by rw [List.length_append, hm]; simpa [Nat.add_assoc] using h), ?_, ?_⟩
  · simp only [List.length_append, List.length_take, List.length_drop, List.length_cons, List.length_nil, hm]
    omega
  · refine ⟨m.drop (t.length + (bs ++ [0]).length), ?_⟩
    have : m.take t.length = t := by rw [hr]; exact List.take_left' rfl
    rw [this]
    simp

theorem text_holds (m t : Str) (h : Holds m t) (h0 : ∀ c ∈ t, c ≠ 0) : text m = t := by
  obtain ⟨-, r, hr⟩ := h
  unfold text
  rw [hr, List.takeWhile_append_of_pos]
  · simp
  · intro c hc
    simpa using h0 c hc

theorem left_le {n : Nat} (h : n ≤ room) : left n = room - n := by unfold left; rw [if_pos h]

/-- what is in the memory -/
def want (t b : Str) : Str :=
  let s := (t ++ b).take 79
  if t.length + b.length > 60 then (s ++ newLine).take 79 else s

theorem prep_fits (mem : Str) (hm : mem.length = room) (time lname name : Str) (ht : time.length ≤ 60)
    (h : time.length + (body lname name).length ≤ room) :
    ∃ m, prep mem (some time) lname name = some m ∧ Holds m (want time (body lname name)) := by
  generalize hb : body lname name = b at h
  unfold prep want
  simp only [Option.getD_some, hb]
  have hroom : room = 80 := rfl
  obtain ⟨m1, e1, h1⟩ := put_holds mem hm [] time ⟨mem, rfl⟩ (by simp only [List.length_nil]; omega)
  have e1' : put mem 0 (time ++ [0]) = some m1 := e1
  rw [e1']
  simp only [Option.bind_some, List.nil_append] at h1 ⊢
  have hl : left time.length = room - time.length := left_le (by omega)
  have e2 : snprintf m1 time.length (left time.length) b = put m1 time.length (b.take (room - time.length - 1) ++ [0]) := by
    unfold snprintf
    rw [hl, if_neg (by omega)]
  rw [e2]
  obtain ⟨r1, hr1⟩ := h1.2
  obtain ⟨m2, e3, h2⟩ := put_holds m1 h1.1 time (b.take (room - time.length - 1)) ⟨_, hr1⟩ (by rw [List.length_take]; omega)
  rw [e3]
  simp only [Option.bind_some]
  have hs : time ++ b.take (room - time.length - 1) = (time ++ b).take 79 := by
    rw [List.take_append, List.take_of_length_le (by omega : time.length ≤ 79)]
    congr 2
    omega
  rw [hs] at h2
  by_cases h60 : time.length + b.length > 60
  · rw [if_pos h60, if_pos h60]
    have hl2 : left (time.length + b.length) = room - (time.length + b.length) := left_le h
    by_cases h80 : time.length + b.length = room
    · have e4 : snprintf m2 (time.length + b.length) (left (time.length + b.length)) newLine = some m2 := by
        unfold snprintf
        rw [hl2, if_pos (by omega)]
      refine ⟨m2, e4, ?_⟩
      have : ((time ++ b).take 79 ++ newLine).take 79 = (time ++ b).take 79 := by
        apply List.take_left'
        rw [List.length_take, List.length_append]
        omega
      rw [this]
      exact h2
    · have hfull : (time ++ b).take 79 = time ++ b := List.take_of_length_le (by rw [List.length_append]; omega)
      rw [hfull] at h2 ⊢
      have e4 : snprintf m2 (time.length + b.length) (left (time.length + b.length)) newLine =
          put m2 (time ++ b).length (newLine.take (room - (time.length + b.length) - 1) ++ [0]) := by
        unfold snprintf
        rw [hl2, if_neg (by omega), List.length_append]
      rw [e4]
      obtain ⟨r2, hr2⟩ := h2.2
      obtain ⟨m3, e5, h3⟩ := put_holds m2 h2.1 (time ++ b) (newLine.take (room - (time.length + b.length) - 1)) ⟨_, hr2⟩
        (by rw [List.length_take, List.length_append]; omega)
      refine ⟨m3, e5, ?_⟩
      have : (time ++ b ++ newLine).take 79 = time ++ b ++ newLine.take (room - (time.length + b.length) - 1) := by
        rw [List.take_append (l₁ := time ++ b), List.take_of_length_le (by rw [List.length_append]; omega : (time ++ b).length ≤ 79)]
        congr 2
        rw [List.length_append]
        omega
      rw [this]
      exact h3
  · rw [if_neg h60, if_neg h60]
    exact ⟨m2, rfl, h2⟩

theorem body_length (lname name : Str) : (body lname name).length = lname.length + name.length + 2 := by
  simp [body]; omega

/-- A name which leaves room: the message begins with time, level and name of the logger. -/
theorem C122_prefix_partial (mem : Str) (hm : mem.length = 80) (time lname name : Str) (h : time.length + lname.length + name.length + 2 ≤ 60)
    (h0 : ∀ c ∈ time ++ lname ++ name, c ≠ 0) :
    ∃ m, prep mem (some time) lname name = some m ∧ text m = Prefix time lname name := by
  have hb := body_length lname name
  obtain ⟨m, e, hh⟩ := prep_fits mem hm time lname name (by omega) (by rw [hb]; show _ ≤ 80; omega)
  refine ⟨m, e, ?_⟩
  have hw : want time (body lname name) = Prefix time lname name := by
    unfold want
    rw [if_neg (by rw [hb]; omega), List.take_of_length_le (by rw [List.length_append, hb]; omega)]
    simp [Prefix, body]
  rw [hw] at hh
  apply text_holds m _ hh
  intro c hc
  simp only [Prefix, List.mem_append, List.mem_singleton] at hc
  have h1 : c = 0x20 → c ≠ 0 := by intro h; rw [h]; decide
  rcases hc with (((hc | hc) | hc) | hc) | hc
  · exact h0 c (by simp [hc])
  · exact h1 hc
  · exact h0 c (by simp [hc])
  · exact h1 hc
  · exact h0 c (by simp [hc])

/-- A longer one, up to 80 bytes in all: what was meant to move the message to the next line is cut to what fits. -/
theorem C122_long (mem : Str) (hm : mem.length = 80) (time lname name : Str) (h1 : 60 < time.length + lname.length + name.length + 2)
    (h2 : time.length + lname.length + name.length + 2 ≤ 80) (ht : time.length ≤ 60) (h0 : ∀ c ∈ time ++ lname ++ name, c ≠ 0) :
    ∃ m, prep mem (some time) lname name = some m ∧ text m = (Prefix time lname name ++ [0x0a, 0x20, 0x20, 0x20, 0x20]).take 79 := by
  have hb := body_length lname name
  obtain ⟨m, e, hh⟩ := prep_fits mem hm time lname name ht (by rw [hb]; show _ ≤ 80; omega)
  refine ⟨m, e, ?_⟩
  have hp : time ++ body lname name = Prefix time lname name := by simp [Prefix, body]
  have hpl : (Prefix time lname name).length = time.length + lname.length + name.length + 2 := by rw [← hp, List.length_append, hb]; omega
  have hw : want time (body lname name) = (Prefix time lname name ++ newLine).take 79 := by
    unfold want
    rw [if_pos (by rw [hb]; omega), hp]
    by_cases h79 : time.length + lname.length + name.length + 2 ≤ 79
    · rw [List.take_of_length_le (l := Prefix time lname name) (by omega)]
    · rw [List.take_left' (by rw [List.length_take]; omega), List.take_append_of_le_length (by omega)]
  rw [hw] at hh
  apply text_holds m _ hh
  intro c hc
  have hc' := List.mem_of_mem_take hc
  simp only [Prefix, newLine, List.mem_append, List.mem_cons, List.mem_singleton, List.not_mem_nil, or_false] at hc'
  have hx : c = 0x20 → c ≠ 0 := by intro h; rw [h]; decide
  have hy : c = 0x0a → c ≠ 0 := by intro h; rw [h]; decide
  rcases hc' with ((((hc | hc) | hc) | hc) | hc) | hc
  · exact h0 c (by simp [hc])
  · exact hx hc
  · exact h0 c (by simp [hc])
  · exact hx hc
  · exact h0 c (by simp [hc])
  · rcases hc with hc | hc | hc | hc | hc
    · exact hy hc
    · exact hx hc
    · exact hx hc
    · exact hx hc
    · exact hx hc

/-- With more than 80 bytes in all, six bytes are written outside of the memory: any message of a logger with a long name does so. -/
theorem C122_overflow (mem : Str) (hm : mem.length = 80) (time lname name : Str) (ht : time.length ≤ 60)
    (h : 80 < time.length + lname.length + name.length + 2) (hi : time.length + lname.length + name.length + 2 < 2 ^ 31) :
    prep mem (some time) lname name = none := by
  have hb := body_length lname name
  generalize hbb : body lname name = b at hb
  unfold prep
  simp only [Option.getD_some, hbb]
  have hroom : room = 80 := rfl
  obtain ⟨m1, e1, h1⟩ := put_holds mem hm [] time ⟨mem, rfl⟩ (by simp only [List.length_nil]; omega)
  have e1' : put mem 0 (time ++ [0]) = some m1 := e1
  rw [e1']
  simp only [Option.bind_some, List.nil_append] at h1 ⊢
  have hl : left time.length = room - time.length := left_le (by omega)
  have e2 : snprintf m1 time.length (left time.length) b = put m1 time.length (b.take (room - time.length - 1) ++ [0]) := by
    unfold snprintf
    rw [hl, if_neg (by omega)]
  rw [e2]
  obtain ⟨r1, hr1⟩ := h1.2
  obtain ⟨m2, e3, h2⟩ := put_holds m1 h1.1 time (b.take (room - time.length - 1)) ⟨_, hr1⟩ (by rw [List.length_take]; omega)
  rw [e3]
  simp only [Option.bind_some]
  rw [if_pos (by omega)]
  unfold snprintf
  have hl2 : left (time.length + b.length) = 2 ^ 64 + 80 - (time.length + b.length) := by
    unfold left; rw [if_neg (by omega), hroom]
  rw [hl2, if_neg (by omega)]
  apply put_none
  rw [h2.1]
  omega

/-- so, at the error level with colours, for every name of 36 bytes or more -/
theorem C122_names (mem : Str) (hm : mem.length = 80) (time name : Str) (ht : time.length = 29) (hn : 36 ≤ name.length) (hi : name.length < 2 ^ 30) :
    prep mem (some time) (levelName true .err) name = none :=
  have : (levelName true .err).length = 14 := by decide +kernel
  C122_overflow mem hm time _ name (by omega) (by omega) (by omega)

theorem C122_safe_false : ¬ ∀ (mem time lname name : Str), mem.length = 80 → time.length = 29 → (prep mem (some time) lname name).isSome = true := by
  intro h
  have := h (List.replicate 80 0) (List.replicate 29 0x30) (levelName true .err) (List.replicate 36 0x61) (by simp) (by simp)
  rw [C122_names _ (by simp) _ _ (by simp) (by simp) (by simp)] at this
  cases this

/-- no memory is touched but the buffer, exactly if all fits into 80 bytes -/
theorem C122_safe (mem : Str) (hm : mem.length = 80) (time lname name : Str) (ht : time.length ≤ 60)
    (hi : time.length + lname.length + name.length + 2 < 2 ^ 31) :
    (prep mem (some time) lname name).isSome = true ↔ time.length + lname.length + name.length + 2 ≤ 80 := by
  by_cases h : time.length + lname.length + name.length + 2 ≤ 80
  · obtain ⟨m, e, -⟩ := prep_fits mem hm time lname name ht (by rw [body_length]; show _ ≤ 80; omega)
    rw [e]; simp [h]
  · rw [C122_overflow mem hm time lname name ht (by omega) hi]; simp [h]

example : (prep (List.replicate 80 0) (some (List.replicate 29 0x30)) (levelName false .warn) [0x61, 0x2e, 0x62]).map text =
    some (Prefix (List.replicate 29 0x30) (levelName false .warn) [0x61, 0x2e, 0x62]) := by decide +kernel

/-! ### critical messages -/

/-- A message ends the process, or its thread, if and only if its level is critical and $_PVXS_ABORT_ON_CRIT says so. -/
theorem C122_abort (same : Str → Str → Bool) (env : Option Str) (raw : Nat) :
    (after (abortOnCrit same env) raw = .aborts ∨ after (abortOnCrit same env) raw = .stops) ↔
      raw % 256 = 10 ∧ ∃ v, env = some v ∧ (same v "YES".toUTF8.toList = true ∨ v = "1".toUTF8.toList ∨ same v "EPICS".toUTF8.toList = true) := by
  have hraw : raw &&& 0xff = raw % 256 := Nat.and_two_pow_sub_one_eq_mod raw 8
  have hab : abortOnCrit same env ≠ 0 ↔ ∃ v, env = some v ∧ (same v "YES".toUTF8.toList = true ∨ v = "1".toUTF8.toList ∨ same v "EPICS".toUTF8.toList = true) := by
    cases env with
    | none => simp [abortOnCrit]
    | some v =>
      unfold abortOnCrit
      constructor
      · intro h
        refine ⟨v, rfl, ?_⟩
        by_cases h1 : same v "YES".toUTF8.toList = true ∨ v = "1".toUTF8.toList
        · rcases h1 with h1 | h1
          · exact Or.inl h1
          · exact Or.inr (Or.inl h1)
        · simp only [h1, if_false] at h
          by_cases h2 : same v "EPICS".toUTF8.toList = true
          · exact Or.inr (Or.inr h2)
          · simp only [h2, if_false] at h
            exact absurd rfl h
      · rintro ⟨w, hw, h⟩
        cases hw
        by_cases h1 : same v "YES".toUTF8.toList = true ∨ v = "1".toUTF8.toList
        · simp only [h1, if_true]; decide
        · simp only [h1, if_false]
          have h2 : same v "EPICS".toUTF8.toList = true := by
            rcases h with h | h | h
            · exact absurd (Or.inl h) h1
            · exact absurd (Or.inr h) h1
            · exact h
          simp only [h2, if_true]; decide
  rw [← hab, ← hraw]
  generalize abortOnCrit same env = a
  unfold after
  show _ ↔ raw &&& 0xff = 10 ∧ a ≠ 0
  by_cases hc : raw &&& 0xff = 10 ∧ a ≠ 0
  · have hc' : raw &&& 0xff = Level.code .crit ∧ a ≠ 0 := hc
    rw [if_pos hc']
    split <;> simp [hc]
  · have hc' : ¬ (raw &&& 0xff = Level.code .crit ∧ a ≠ 0) := hc
    rw [if_neg hc']
    split <;> simp [hc]

/-- exceptions are critical: log_exc_printf() -/
example (same : Str → Str → Bool) : after (abortOnCrit same (some "1".toUTF8.toList)) (10 ||| 0x1000) = .aborts := by
  have : abortOnCrit same (some "1".toUTF8.toList) = 1 := by simp [abortOnCrit]
  rw [this]
  decide

/-! ### dump of bytes -/

theorem digit_hexDigit (n : UInt8) (h : n < 16) : digit? (hexDigit n) = some n := by
  have : ∀ n : Fin 16, digit? (hexDigit (UInt8.ofNat n.val)) = some (UInt8.ofNat n.val) := by decide
  have h1 := this ⟨n.toNat, h⟩
  simpa using h1

theorem nibbles (v : UInt8) : (16 : UInt8) * ((v >>> 4) &&& 0xf) + (v &&& 0xf) = v ∧ (v >>> 4) &&& 0xf < 16 ∧ v &&& 0xf < 16 := by
  have : ∀ n : Fin 256, (16 : UInt8) * ((UInt8.ofNat n.val >>> 4) &&& 0xf) + (UInt8.ofNat n.val &&& 0xf) = UInt8.ofNat n.val ∧
      (UInt8.ofNat n.val >>> 4) &&& 0xf < 16 ∧ UInt8.ofNat n.val &&& 0xf < 16 := by decide +kernel
  have h1 := this ⟨v.toNat, v.toNat_lt⟩
  simpa using h1

theorem unhex_cons (v : UInt8) (s b : Str) (h : unhex s = some b) : unhex (hexDigit ((v >>> 4) &&& 0xf) :: hexDigit (v &&& 0xf) :: s) = some (v :: b) := by
  obtain ⟨h1, h2, h3⟩ := nibbles v
  unfold unhex
  rw [digit_hexDigit _ h2, digit_hexDigit _ h3, h]
  simp [h1]

theorem group_spec (n : Nat) : ∀ (l s b : Str), unhex s = some b → unhex ((group n l).1 ++ s) = some (l.take n ++ b) ∧ (group n l).2 = l.drop n := by
  induction n with
  | zero => intro l s b h; exact ⟨by simpa [group] using h, rfl⟩
  | succ n ih =>
    intro l s b h
    cases l with
    | nil => exact ⟨by simpa [group] using h, rfl⟩
    | cons v l =>
      obtain ⟨i1, i2⟩ := ih l s b h
      exact ⟨unhex_cons v _ _ i1, i2⟩

theorem groups_spec (n : Nat) : ∀ (l s b : Str), unhex s = some b →
    unhex ((groups n l).1.flatten ++ s) = some (l.take (4 * n) ++ b) ∧ (groups n l).2 = l.drop (4 * n) ∧ (groups n l).1.length = n := by
  induction n with
  | zero => intro l s b h; exact ⟨by simpa [groups] using h, rfl, rfl⟩
  | succ n ih =>
    intro l s b h
    have hd := (group_spec 4 l [] [] rfl).2
    obtain ⟨i1, i2, i3⟩ := ih (group 4 l).2 s b h
    refine ⟨?_, ?_, ?_⟩
    · have := (group_spec 4 l _ _ i1).1
      unfold groups
      simp only [List.flatten_cons, List.append_assoc]
      rw [this, hd, ← List.append_assoc]
      have e : 4 * (n + 1) = 4 + 4 * n := by omega
      rw [e, List.take_add]
    · unfold groups
      simp only
      rw [i2, hd, List.drop_drop]
      congr 1
      omega
    · unfold groups
      simp [i3]

theorem rows_spec : ∀ (fuel : Nat) (pos : Nat) (l : Str), l.length ≤ fuel → unhex (digits (rows fuel pos l)) = some l ∧
    ∀ (i : Nat) (line : Line), (rows fuel pos l)[i]? = some line → ∃ gs : List Str, line = .row (pos + 16 * i) gs ∧ gs.length = 4 := by
  intro fuel
  induction fuel with
  | zero =>
    intro pos l h
    have : l = [] := List.length_eq_zero_iff.mp (by omega)
    subst this
    exact ⟨rfl, by intro i line h; simp [rows] at h⟩
  | succ fuel ih =>
    intro pos l h
    by_cases hl : l = []
    · subst hl
      exact ⟨rfl, by intro i line h; simp [rows] at h⟩
    · have hpos : 0 < l.length := List.length_pos_iff.mpr hl
      obtain ⟨-, g2, g3⟩ := groups_spec 4 l [] [] rfl
      have hlen : (groups 4 l).2.length ≤ fuel := by rw [g2, List.length_drop]; omega
      obtain ⟨i1, i2⟩ := ih (pos + (l.length - (groups 4 l).2.length)) (groups 4 l).2 hlen
      have e : rows (fuel + 1) pos l = .row pos (groups 4 l).1 :: rows fuel (pos + (l.length - (groups 4 l).2.length)) (groups 4 l).2 := by
        show (if l = [] then [] else _) = _
        rw [if_neg hl]
      rw [e]
      constructor
      · show unhex ((groups 4 l).1.flatten ++ digits _) = some l
        rw [(groups_spec 4 l _ _ i1).1, g2, List.take_append_drop]
      · intro i line hi
        cases i with
        | zero => exact ⟨_, by simpa using hi.symm, g3⟩
        | succ i =>
          obtain ⟨gs, hg1, hg2⟩ := i2 i line (by simpa using hi)
          by_cases hrest : (groups 4 l).2 = []
          · exfalso
            have hnil : rows fuel (pos + (l.length - (groups 4 l).2.length)) (groups 4 l).2 = [] := by
              rw [hrest]; cases fuel <;> simp [rows]
            rw [hnil] at hi
            simp at hi
          · refine ⟨gs, ?_, hg2⟩
            have h16 : 16 < l.length := by
              have := List.length_pos_iff.mpr hrest
              rw [g2, List.length_drop] at this
              omega
            rw [hg1, g2, List.length_drop]
            congr 1
            omega

theorem digits_append (a b : List Line) : digits (a ++ b) = digits a ++ digits b := by
  induction a with
  | nil => rfl
  | cons x a ih => cases x <;> simp [digits, ih]

/-- The digits of a dump are those of the bytes, up to the first 64. -/
theorem C122_dump (buf : Str) : unhex (digits (dump buf)) = some (buf.take 64) := by
  unfold dump
  simp only [digits_append]
  have : digits (if buf.length > 64 then [.ellipsis] else []) = [] := by split <;> rfl
  rw [this, List.append_nil]
  exact (rows_spec _ 0 _ (Nat.le_refl _)).1

/-- Each line has four groups, and the offset of its first byte, which is a multiple of 16.  The last line is ... if and only if there are more than 64 bytes. -/
theorem C122_lines (buf : Str) : (∀ (i : Nat) (line : Line), (dump buf)[i]? = some line → (∃ gs : List Str, line = .row (16 * i) gs ∧ gs.length = 4) ∨
    (line = .ellipsis ∧ i + 1 = (dump buf).length ∧ buf.length > 64)) ∧ (Line.ellipsis ∈ dump buf ↔ buf.length > 64) := by
  have hr := (rows_spec (buf.take 64).length 0 (buf.take 64) (Nat.le_refl _)).2
  generalize hrr : rows (buf.take 64).length 0 (buf.take 64) = r at hr
  have hd : dump buf = r ++ (if buf.length > 64 then [.ellipsis] else []) := by unfold dump; simp only [hrr]
  have hne : Line.ellipsis ∉ r := by
    intro hm
    obtain ⟨i, hi⟩ := List.getElem?_of_mem hm
    obtain ⟨gs, h, -⟩ := hr i _ hi
    cases h
  constructor
  · intro i line hi
    rw [hd] at hi
    by_cases hlt : i < r.length
    · rw [List.getElem?_append_left hlt] at hi
      obtain ⟨gs, h1, h2⟩ := hr i line hi
      exact Or.inl ⟨gs, by rw [h1]; simp, h2⟩
    · rw [List.getElem?_append_right (by omega)] at hi
      by_cases hb : buf.length > 64
      · rw [if_pos hb] at hi
        right
        cases hk : i - r.length with
        | zero =>
          rw [hk] at hi
          have : line = .ellipsis := by simpa using hi.symm
          refine ⟨this, ?_, hb⟩
          rw [hd, if_pos hb, List.length_append]
          simp only [List.length_cons, List.length_nil]
          omega
        | succ k => rw [hk] at hi; simp at hi
      · rw [if_neg hb] at hi; simp at hi
  · rw [hd]
    by_cases hb : buf.length > 64
    · simp [hb]
    · simp [hb, hne]

example : dump [0x01, 0xab, 0xff, 0x00, 0x7f] = [.row 0 [[0x30, 0x31, 0x41, 0x42, 0x46, 0x46, 0x30, 0x30], [0x37, 0x46], [], []]] := by decide +kernel

end Pvxs.Props.LogMsg
