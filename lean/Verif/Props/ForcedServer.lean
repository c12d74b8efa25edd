import Verif.Spec.ForcedServer
/-
C128: channels of which the application gives the server.
-/
namespace Pvxs.Props.ForcedServer
open Pvxs.ForcedServer Spec.ForcedServer

/-- towards this server -/
def Phase.toward : Phase → Option Nat
  | .searching => none
  | .connecting e => some e
  | .creating e => some e
  | .active e => some e

theorem run_snoc (l : List Op) (o : Op) : run (l ++ [o]) = step (run l) o := by simp [run]

theorem snoc_induction {P : List Op → Prop} (h0 : P []) (h1 : ∀ l o, P l → P (l ++ [o])) (l : List Op) : P l := by
  suffices h : ∀ n (l : List Op), l.length = n → P l from h _ l rfl
  intro n
  induction n with
  | zero => intro l hl; rw [List.length_eq_zero_iff.mp hl]; exact h0
  | succ n ih =>
    intro l hl
    rcases List.eq_nil_or_concat l with rfl | ⟨l', x, rfl⟩
    · simp at hl
    · rw [List.concat_eq_append] at hl ⊢
      exact h1 _ _ (ih l' (by simpa using hl))

/-- how one channel changes in one step -/
inductive Moves (s : St) (o : Op) (x : Nat) : Option Chan → Option Chan → Prop where
  | same (c : Option Chan) : Moves s o x c c
  | made (name : Nat) (h : o = .build name none) (hx : x = s.next) (hn : has s name none = false) (hr : s.running = true) (c : Option Chan) :
      Moves s o x c (some ⟨name, none, .searching, true⟩)
  | madeAt (name f : Nat) (h : o = .build name (some f)) (hx : x = s.next) (hn : has s name (some f) = false) (hr : s.running = true) (c : Option Chan) :
      Moves s o x c (some ⟨name, some f, .connecting f, false⟩)
  | reply (e : Nat) (h : o = .reply x e) (hr : s.running = true) (c : Chan) (hc : c.phase = .searching) :
      Moves s o x (some c) (some { c with phase := .connecting e })
  | ready (h : o = .ready x) (c : Chan) (e : Nat) (hc : c.phase = .connecting e) : Moves s o x (some c) (some { c with phase := .creating e })
  | accepted (h : o = .accepted x) (c : Chan) (e : Nat) (hc : c.phase = .creating e) : Moves s o x (some c) (some { c with phase := .active e })
  | refused (h : o = .refused x) (c : Chan) (e : Nat) (hc : c.phase = .creating e) :
      Moves s o x (some c) (some { c with phase := .searching, bucket := true })
  | lost (h : o = .lost x) (c : Chan) (hf : c.forced = none) : Moves s o x (some c) (some { c with phase := .searching, bucket := true })
  | lostAt (h : o = .lost x) (c : Chan) (f : Nat) (hf : c.forced = some f) :
      Moves s o x (some c) (some { c with phase := if s.running then .connecting f else .searching })
  | tick (c : Chan) : Moves s o x (some c) (some { c with bucket := c.bucket && c.phase == .searching })

theorem put_at (s : St) (cid : Nat) (c : Chan) (x : Nat) : (put s cid c).chans x = if x = cid then some c else s.chans x := rfl

theorem moves (s : St) (o : Op) (x : Nat) : Moves s o x (s.chans x) ((step s o).chans x) := by
  cases o with
  | build name server =>
    simp only [step, build]
    split
    · exact .same _
    · rename_i h
      simp only [Bool.or_eq_true, Bool.not_eq_true', not_or, Bool.not_eq_false, Bool.not_eq_true] at h
      cases server with
      | none =>
        simp only [put_at]
        split
        · rename_i hx; exact .made name rfl hx h.2 h.1 _
        · exact .same _
      | some f =>
        simp only [put_at]
        split
        · rename_i hx; exact .madeAt name f rfl hx h.2 h.1 _
        · exact .same _
  | reply cid e =>
    simp only [step, reply]
    split
    · exact .same _
    · rename_i c hc
      split
      · rename_i h
        simp only [Bool.and_eq_true, beq_iff_eq] at h
        rw [put_at]
        split
        · rename_i hx; subst hx; rw [hc]; exact .reply e rfl h.1 c h.2
        · exact .same _
      · exact .same _
  | ready cid =>
    simp only [step, ready]
    split
    · exact .same _
    · rename_i c hc
      split
      · rename_i e he
        simp only [put_at]
        split
        · rename_i hx; subst hx; rw [hc]; exact .ready rfl c e he
        · exact .same _
      · exact .same _
  | accepted cid =>
    simp only [step, accepted]
    split
    · exact .same _
    · rename_i c hc
      split
      · rename_i e he
        rw [put_at]
        split
        · rename_i hx; subst hx; rw [hc]; exact .accepted rfl c e he
        · exact .same _
      · exact .same _
  | refused cid =>
    simp only [step, refused]
    split
    · exact .same _
    · rename_i c hc
      split
      · rename_i e he
        rw [put_at]
        split
        · rename_i hx; subst hx; rw [hc]; exact .refused rfl c e he
        · exact .same _
      · exact .same _
  | lost cid =>
    simp only [step, lost]
    split
    · exact .same _
    · rename_i c hc
      split
      · exact .same _
      · split
        · rename_i hf
          rw [put_at]
          split
          · rename_i hx; subst hx; rw [hc]; exact .lost rfl c hf
          · exact .same _
        · rename_i f hf
          rw [put_at]
          split
          · rename_i hx; subst hx; rw [hc]; exact .lostAt rfl c f hf
          · exact .same _
  | tick =>
    simp only [step, tick]
    split
    · cases hc : s.chans x with
      | none => simp only [hc]; exact .same _
      | some c => simp only [hc]; exact .tick c
    · exact .same _
  | close => exact .same _

theorem running_step (s : St) (o : Op) (h : (step s o).running = true) : s.running = true := by
  cases o with
  | build name server =>
    simp only [step, build] at h
    split at h
    · exact h
    · exact h
  | reply cid e =>
    simp only [step, reply] at h
    split at h
    · exact h
    · split at h <;> exact h
  | ready cid =>
    simp only [step, ready] at h
    split at h
    · exact h
    · split at h <;> exact h
  | accepted cid =>
    simp only [step, accepted] at h
    split at h
    · exact h
    · split at h <;> exact h
  | refused cid =>
    simp only [step, refused] at h
    split at h
    · exact h
    · split at h <;> exact h
  | lost cid =>
    simp only [step, lost] at h
    split at h
    · exact h
    · split at h
      · exact h
      · split at h <;> exact h
  | tick =>
    simp only [step, tick] at h
    split at h <;> exact h
  | close => cases h

/-- what is sent -/
theorem created_step (s : St) (o : Op) (x e : Nat) (h : (x, e) ∈ (step s o).created) :
    (x, e) ∈ s.created ∨ ∃ c, s.chans x = some c ∧ c.phase = .connecting e := by
  cases o with
  | build name server =>
    simp only [step, build] at h
    split at h <;> exact Or.inl h
  | reply cid e' =>
    simp only [step, reply] at h
    split at h
    · exact Or.inl h
    · split at h <;> exact Or.inl h
  | ready cid =>
    simp only [step, ready] at h
    split at h
    · exact Or.inl h
    · rename_i c hc
      split at h
      · rename_i e' he
        simp only [List.mem_append, List.mem_singleton, Prod.mk.injEq] at h
        rcases h with h | ⟨rfl, rfl⟩
        · exact Or.inl h
        · exact Or.inr ⟨c, hc, he⟩
      · exact Or.inl h
  | accepted cid =>
    simp only [step, accepted] at h
    split at h
    · exact Or.inl h
    · split at h <;> exact Or.inl h
  | refused cid =>
    simp only [step, refused] at h
    split at h
    · exact Or.inl h
    · split at h <;> exact Or.inl h
  | lost cid =>
    simp only [step, lost] at h
    split at h
    · exact Or.inl h
    · split at h
      · exact Or.inl h
      · split at h <;> exact Or.inl h
  | tick =>
    simp only [step, tick] at h
    split at h <;> exact Or.inl h
  | close => exact Or.inl h

theorem searched_step (s : St) (o : Op) (x : Nat) (h : x ∈ (step s o).searched) :
    x ∈ s.searched ∨ ∃ c, s.chans x = some c ∧ c.bucket = true := by
  cases o with
  | build name server =>
    simp only [step, build] at h
    split at h <;> exact Or.inl h
  | reply cid e' =>
    simp only [step, reply] at h
    split at h
    · exact Or.inl h
    · split at h <;> exact Or.inl h
  | ready cid =>
    simp only [step, ready] at h
    split at h
    · exact Or.inl h
    · split at h <;> exact Or.inl h
  | accepted cid =>
    simp only [step, accepted] at h
    split at h
    · exact Or.inl h
    · split at h <;> exact Or.inl h
  | refused cid =>
    simp only [step, refused] at h
    split at h
    · exact Or.inl h
    · split at h <;> exact Or.inl h
  | lost cid =>
    simp only [step, lost] at h
    split at h
    · exact Or.inl h
    · split at h
      · exact Or.inl h
      · split at h <;> exact Or.inl h
  | tick =>
    simp only [step, tick] at h
    split at h
    · simp only [List.mem_append, List.mem_filter] at h
      rcases h with h | ⟨_, h⟩
      · exact Or.inl h
      · right
        cases hc : s.chans x with
        | none => simp [hc] at h
        | some c => simp [hc] at h; exact ⟨c, rfl, h.1⟩
    · exact Or.inl h
  | close => exact Or.inl h

theorem next_step (s : St) (o : Op) : s.next ≤ (step s o).next := by
  cases o with
  | build name server => simp only [step, build]; split <;> simp
  | reply cid e => simp only [step, reply]; split <;> (try split) <;> simp [put]
  | ready cid => simp only [step, ready]; split <;> (try split) <;> simp [put]
  | accepted cid => simp only [step, accepted]; split <;> (try split) <;> simp [put]
  | refused cid => simp only [step, refused]; split <;> (try split) <;> simp [put]
  | lost cid => simp only [step, lost]; split <;> (try split) <;> (try split) <;> simp [put]
  | tick => simp only [step, tick]; split <;> simp
  | close => exact Nat.le_refl _

theorem next_made {s : St} {name : Nat} {server : Option Nat} (hn : has s name server = false) (hr : s.running = true) :
    (step s (.build name server)).next = s.next + 1 := by
  simp [step, build, hn, hr]

/-- the numbers of channels -/
theorem bounded (l : List Op) : (∀ x c, (run l).chans x = some c → x < (run l).next) ∧ (∀ x e, (x, e) ∈ (run l).created → x < (run l).next) ∧
    ∀ x ∈ (run l).searched, x < (run l).next := by
  induction l using snoc_induction with
  | h0 => exact ⟨fun x c h => by simp [run] at h, fun x e h => by simp [run] at h, fun x h => by simp [run] at h⟩
  | h1 l o ih =>
    rw [run_snoc]
    have hle := next_step (run l) o
    obtain ⟨i1, i2, i3⟩ := ih
    generalize hs : run l = s at *
    refine ⟨fun x c h => ?_, fun x e h => ?_, fun x h => ?_⟩
    · have hm := moves s o x
      rw [h] at hm
      generalize hq : s.chans x = q at hm
      cases hm with
      | same => exact Nat.lt_of_lt_of_le (i1 x c hq) hle
      | made name ho hx hn hr => subst ho; rw [next_made hn hr]; omega
      | madeAt name f ho hx hn hr => subst ho; rw [next_made hn hr]; omega
      | reply e ho hr c hc => exact Nat.lt_of_lt_of_le (i1 x _ hq) hle
      | ready ho c e hc => exact Nat.lt_of_lt_of_le (i1 x _ hq) hle
      | accepted ho c e hc => exact Nat.lt_of_lt_of_le (i1 x _ hq) hle
      | refused ho c e hc => exact Nat.lt_of_lt_of_le (i1 x _ hq) hle
      | lost ho c hf => exact Nat.lt_of_lt_of_le (i1 x _ hq) hle
      | lostAt ho c f hf => exact Nat.lt_of_lt_of_le (i1 x _ hq) hle
      | tick c => exact Nat.lt_of_lt_of_le (i1 x _ hq) hle
    · rcases created_step s o x e h with h | ⟨c, h, _⟩
      · exact Nat.lt_of_lt_of_le (i2 x e h) hle
      · exact Nat.lt_of_lt_of_le (i1 x c h) hle
    · rcases searched_step s o x h with h | ⟨c, h, _⟩
      · exact Nat.lt_of_lt_of_le (i3 x h) hle
      · exact Nat.lt_of_lt_of_le (i1 x c h) hle

/-- name and given server of a channel stay, unless it is made in this step -/
theorem keeps {s : St} {o : Op} {x : Nat} {a b : Option Chan} (h : Moves s o x a b) (hx : x ≠ s.next) :
    a.map (fun c => (c.name, c.forced)) = b.map (fun c => (c.name, c.forced)) := by
  cases h <;> first | rfl | contradiction

/-- C128, sharing: over all histories, a name with the same given server, or with none, is one channel -/
theorem C128_shared (l : List Op) (x y : Nat) (c d : Chan) (hc : (run l).chans x = some c) (hd : (run l).chans y = some d) (hn : c.name = d.name)
    (hf : c.forced = d.forced) : x = y := by
  induction l using snoc_induction generalizing x y c d with
  | h0 => simp [run] at hc
  | h1 l o ih =>
    rw [run_snoc] at hc hd
    have hb := (bounded l).1
    generalize hs : run l = s at *
    have key : ∀ x c, (step s o).chans x = some c → x ≠ s.next → ∃ c', s.chans x = some c' ∧ c'.name = c.name ∧ c'.forced = c.forced := by
      intro x c h hx
      have := keeps (moves s o x) hx
      rw [h] at this
      cases hq : s.chans x with
      | none => simp [hq] at this
      | some c' => simp [hq] at this; exact ⟨c', rfl, this.1, this.2⟩
    have fresh : ∀ x c d y, (step s o).chans x = some c → (step s o).chans y = some d → x = s.next → y ≠ s.next → c.name = d.name → c.forced = d.forced → False := by
      intro x c d y h h' hx hy e1 e2
      obtain ⟨d', k1, k2, k3⟩ := key y d h' hy
      have hno : s.chans x = none := by
        cases hq : s.chans x with
        | none => rfl
        | some c' => have := hb x c' hq; omega
      have hm := moves s o x
      rw [hno, h] at hm
      have hany : ∀ name server, c.name = name → c.forced = server → has s name server = true := by
        rintro _ _ rfl rfl
        refine List.any_eq_true.mpr ⟨y, List.mem_range.mpr (hb y d' k1), ?_⟩
        simp [k1, k2, k3, e1, e2]
      cases hm with
      | made name ho hx hn hr => rw [hany _ _ rfl rfl] at hn; cases hn
      | madeAt name f ho hx hn hr => rw [hany _ _ rfl rfl] at hn; cases hn
    by_cases hx : x = s.next
    · by_cases hy : y = s.next
      · rw [hx, hy]
      · exact (fresh x c d y hc hd hx hy hn hf).elim
    · by_cases hy : y = s.next
      · exact (fresh y d c x hd hc hy hx hn.symm hf.symm).elim
      · obtain ⟨c', k1, k2, k3⟩ := key x c hc hx
        obtain ⟨d', m1, m2, m3⟩ := key y d hd hy
        exact ih x y c' d' k1 m1 (by rw [k2, m2, hn]) (by rw [k3, m3, hf])

/-- C128, sharing: an operation gets a channel of its name and its server -/
theorem C128_own (l : List Op) (hr : (run l).running = true) (name : Nat) (server : Option Nat) :
    ∃ x c, (run (l ++ [.build name server])).chans x = some c ∧ c.name = name ∧ c.forced = server := by
  rw [run_snoc]
  simp only [step, build, hr, Bool.not_true, Bool.false_or]
  split
  · rename_i h
    obtain ⟨x, _, hx⟩ := List.any_eq_true.mp h
    cases hq : (run l).chans x with
    | none => simp [hq] at hx
    | some c => simp [hq] at hx; exact ⟨x, c, hq, hx.1, hx.2⟩
  · refine ⟨(run l).next, _, if_pos rfl, ?_⟩
    cases server <;> exact ⟨rfl, rfl⟩

/-- where channels head for -/
theorem heads (l : List Op) (x : Nat) (c : Chan) (h : (run l).chans x = some c) (e : Nat) (he : Phase.toward c.phase = some e) :
    c.forced = some e ∨ .reply x e ∈ l := by
  induction l using snoc_induction generalizing c with
  | h0 => simp [run] at h
  | h1 l o ih =>
    rw [run_snoc] at h
    have hm := moves (run l) o x
    rw [h] at hm
    have old : ∀ c', (run l).chans x = some c' → Phase.toward c'.phase = some e → c'.forced = some e ∨ .reply x e ∈ l ++ [o] := by
      intro c' h' he'
      rcases ih c' h' he' with k | k
      · exact Or.inl k
      · exact Or.inr (by simp [k])
    generalize hq : (run l).chans x = q at hm
    cases hm with
    | same => exact old c hq he
    | made name ho hx hn hr => simp [Phase.toward] at he
    | madeAt name f ho hx hn hr => simp [Phase.toward] at he; simp [he]
    | reply e' ho hr c hc => simp [Phase.toward] at he; subst he; exact Or.inr (by simp [ho])
    | ready ho c e' hc => exact old c hq (by simpa [hc, Phase.toward] using he)
    | accepted ho c e' hc => exact old c hq (by simpa [hc, Phase.toward] using he)
    | refused ho c e' hc => simp [Phase.toward] at he
    | lost ho c hf => simp [Phase.toward] at he
    | lostAt ho c f hf =>
      left
      simp only at he ⊢
      split at he
      · simp [Phase.toward] at he; rw [hf, he]
      · simp [Phase.toward] at he
    | tick c => exact old c hq he

theorem given_step {l : List Op} {o : Op} {x f : Nat} (h : Given (run l) x f) : Given (run (l ++ [o])) x f := by
  obtain ⟨c, h1, h2⟩ := h
  have hb := (bounded l).1 x c h1
  have := keeps (moves (run l) o x) (by omega)
  rw [run_snoc]
  rw [h1] at this
  cases hq : (step (run l) o).chans x with
  | none => simp [hq] at this
  | some c' => simp [hq] at this; exact ⟨c', hq, by rw [← this.2, h2]⟩

/-- C128, over all histories: a channel is asked for at the server which the application gave for it, or at one which said that it has it -/
theorem C128_any (l : List Op) (x e : Nat) (h : (x, e) ∈ (run l).created) : Given (run l) x e ∨ .reply x e ∈ l := by
  induction l using snoc_induction with
  | h0 => simp [run] at h
  | h1 l o ih =>
    rw [run_snoc] at h
    have one : Given (run l) x e ∨ .reply x e ∈ l := by
      rcases created_step (run l) o x e h with h | ⟨c, h1, h2⟩
      · exact ih h
      · rcases heads l x c h1 e (by rw [h2]; rfl) with k | k
        · exact Or.inl ⟨c, h1, k⟩
        · exact Or.inr k
    rcases one with k | k
    · exact Or.inl (given_step k)
    · exact Or.inr (by simp [k])

theorem NoneRefused.init {l : List Op} {o : Op} (h : NoneRefused (l ++ [o])) : NoneRefused l := by
  intro l1 l2 cid hl f
  exact h l1 (l2 ++ [o]) cid (by simp [hl]) f

/-- a channel with a given server heads for it -/
theorem stays (l : List Op) (hl : NoneRefused l) (x : Nat) (c : Chan) (h : (run l).chans x = some c) (f : Nat) (hf : c.forced = some f) :
    c.bucket = false ∧ (∀ e, Phase.toward c.phase = some e → e = f) ∧ ((run l).running = true → c.phase ≠ .searching) := by
  induction l using snoc_induction generalizing c with
  | h0 => simp [run] at h
  | h1 l o ih =>
    have hn := hl
    have hl := NoneRefused.init hl
    rw [run_snoc] at h ⊢
    have hr := running_step (run l) o
    have hm := moves (run l) o x
    rw [h] at hm
    generalize hq : (run l).chans x = q at hm
    cases hm with
    | same => obtain ⟨k1, k2, k3⟩ := ih hl c hq hf; exact ⟨k1, k2, fun h => k3 (hr h)⟩
    | made name ho hx hn hr => cases hf
    | madeAt name f' ho hx hn hr => cases hf; exact ⟨rfl, by simp [Phase.toward], by simp⟩
    | reply e' ho hr c hc =>
      obtain ⟨k1, k2, k3⟩ := ih hl c hq hf
      exact absurd hc (k3 hr)
    | ready ho c e' hc =>
      obtain ⟨k1, k2, k3⟩ := ih hl c hq hf
      exact ⟨k1, fun e he => k2 e (by simpa [hc, Phase.toward] using he), by simp⟩
    | accepted ho c e' hc =>
      obtain ⟨k1, k2, k3⟩ := ih hl c hq hf
      exact ⟨k1, fun e he => k2 e (by simpa [hc, Phase.toward] using he), by simp⟩
    | refused ho c e' hc =>
      exact absurd ⟨c, hq, hf⟩ (hn l [] x (by rw [ho]) f)
    | lost ho c hf' => rw [show c.forced = some f from hf] at hf'; cases hf'
    | lostAt ho c f' hf' =>
      obtain ⟨k1, k2, k3⟩ := ih hl c hq hf
      rw [show c.forced = some f from hf] at hf'
      cases hf'
      refine ⟨k1, fun e he => ?_, fun h => ?_⟩
      · simp only at he
        split at he
        · simp [Phase.toward] at he; exact he.symm
        · simp [Phase.toward] at he
      · simp [hr h]
    | tick c =>
      obtain ⟨k1, k2, k3⟩ := ih hl c hq hf
      exact ⟨by simp [k1], k2, fun h => k3 (hr h)⟩

/-- C128: a channel for which the application gives the server is never asked for at another one, is never searched for, and as long as the context is not closed is
on its way to this server or there.  Missing: histories in which this server refuses it (`C128_refused`). -/
theorem C128_given_partial (l : List Op) (hl : NoneRefused l) (x f : Nat) (hf : Given (run l) x f) :
    (∀ e, (x, e) ∈ (run l).created → e = f) ∧ x ∉ (run l).searched ∧
    ((run l).running = true → ∃ c, (run l).chans x = some c ∧ (c.phase = .connecting f ∨ c.phase = .creating f ∨ c.phase = .active f)) := by
  have main : ∀ l, NoneRefused l → ∀ f, Given (run l) x f → (∀ e, (x, e) ∈ (run l).created → e = f) ∧ x ∉ (run l).searched := by
    intro l
    induction l using snoc_induction with
    | h0 => intro _ f h; obtain ⟨c, h, _⟩ := h; simp [run] at h
    | h1 l o ih =>
      intro hl f hf
      have hl := NoneRefused.init hl
      have old : ∀ c, (run l).chans x = some c → c.forced = some f := by
        intro c hc
        have hb := (bounded l).1 x c hc
        have := keeps (moves (run l) o x) (by omega)
        obtain ⟨c', k1, k2⟩ := hf
        rw [run_snoc] at k1
        rw [hc, k1] at this
        simp at this
        rw [this.2, k2]
      have none' : (run l).chans x = none → (∀ e, (x, e) ∉ (run l).created) ∧ x ∉ (run l).searched := by
        intro hq
        have hm := moves (run l) o x
        obtain ⟨c', k1, k2⟩ := hf
        rw [run_snoc] at k1
        rw [hq, k1] at hm
        have hx : x = (run l).next := by cases hm <;> assumption
        refine ⟨fun e h => ?_, fun h => ?_⟩
        · have := (bounded l).2.1 x e h; omega
        · have := (bounded l).2.2 x h; omega
      rw [run_snoc]
      refine ⟨fun e h => ?_, fun h => ?_⟩
      · rcases created_step (run l) o x e h with h | ⟨c, h1, h2⟩
        · cases hq : (run l).chans x with
          | none => exact absurd h ((none' hq).1 e)
          | some c => exact (ih hl f ⟨c, hq, old c hq⟩).1 e h
        · exact (stays l hl x c h1 f (old c h1)).2.1 e (by rw [h2]; rfl)
      · rcases searched_step (run l) o x h with h | ⟨c, h1, h2⟩
        · cases hq : (run l).chans x with
          | none => exact (none' hq).2 h
          | some c => exact (ih hl f ⟨c, hq, old c hq⟩).2 h
        · rw [(stays l hl x c h1 f (old c h1)).1] at h2; cases h2
  refine ⟨(main l hl f hf).1, (main l hl f hf).2, fun hr => ?_⟩
  obtain ⟨c, h1, h2⟩ := hf
  obtain ⟨_, k2, k3⟩ := stays l hl x c h1 f h2
  refine ⟨c, h1, ?_⟩
  cases hp : c.phase with
  | searching => exact absurd hp (k3 hr)
  | connecting e => left; rw [k2 e (by rw [hp]; rfl)]
  | creating e => right; left; rw [k2 e (by rw [hp]; rfl)]
  | active e => right; right; rw [k2 e (by rw [hp]; rfl)]

/-- C128: once the given server refuses the channel it is searched for, and asked for at any server which replies -/
theorem C128_refused : Given (run [.build 1 (some 10), .ready 0, .refused 0, .tick, .reply 0 20, .ready 0, .accepted 0]) 0 10 ∧
    0 ∈ (run [.build 1 (some 10), .ready 0, .refused 0, .tick]).searched ∧
    (0, 20) ∈ (run [.build 1 (some 10), .ready 0, .refused 0, .tick, .reply 0 20, .ready 0, .accepted 0]).created ∧
    ((run [.build 1 (some 10), .ready 0, .refused 0, .tick, .reply 0 20, .ready 0, .accepted 0]).chans 0).map (·.phase) = some (.active 20) :=
  ⟨⟨_, rfl, rfl⟩, by decide, by decide, by decide⟩

/-! ### examples -/

/-- three channels of one name; the first and last are found by searching at another server, or refused and found again -/
def three : List Op := [.build 1 none, .build 1 (some 10), .build 1 (some 11), .build 1 (some 10), .tick, .reply 0 20, .reply 1 20, .ready 0, .ready 1, .refused 0, .accepted 1,
  .tick, .reply 0 21, .ready 0, .lost 1, .ready 1]

example : NoneRefused three ∧ Given (run three) 1 10 ∧ (run three).created = [(0, 20), (1, 10), (0, 21), (1, 10)] ∧ (run three).searched = [0, 0] ∧
    (run three).next = 3 := by
  refine ⟨?_, ⟨_, rfl, rfl⟩, by decide, by decide, by decide⟩
  intro l1 l2 cid h f
  have hlen : l1.length < three.length := by rw [h]; simp
  have h1 : l1 = three.take l1.length := by rw [h]; simp
  have h2 : three[l1.length]? = some (.refused cid) := by rw [h]; simp
  generalize l1.length = n at *
  have hn : n = 9 := by
    simp only [three, List.length_cons, List.length_nil] at hlen
    have : n = 0 ∨ n = 1 ∨ n = 2 ∨ n = 3 ∨ n = 4 ∨ n = 5 ∨ n = 6 ∨ n = 7 ∨ n = 8 ∨ n = 9 ∨ n = 10 ∨ n = 11 ∨ n = 12 ∨ n = 13 ∨ n = 14 ∨ n = 15 := by omega
    rcases this with rfl | rfl | rfl | rfl | rfl | rfl | rfl | rfl | rfl | rfl | rfl | rfl | rfl | rfl | rfl | rfl <;> first | rfl | (simp [three] at h2)
  subst hn
  have hc : cid = 0 := by simp [three] at h2; exact h2.symm
  subst hc
  rw [h1]
  rintro ⟨c, k1, k2⟩
  have e : ((run (three.take 9)).chans 0).map (·.forced) = some none := by decide
  rw [k1] at e
  simp [k2] at e

end Pvxs.Props.ForcedServer
