import Verif.Lemmas.MonView
import Verif.Spec.SharedPV
/-
Invariants of SharedPV
-/
namespace Pvxs.SPV
open Pvxs.Mon (Upd Mon merge content fld view)
open Pvxs.Spec.SPV

/-- how often subscription `j` is known to the PV -/
def tot (j : Nat) (w : World) : Nat := w.mpending.count j + w.attaching.countP (fun a => a.sub == j) + w.subscribers.count j

def calls (j : Nat) (w : World) : List Upd := callsTo j Spec.Mon.start w.trace

def call (j : Nat) (s : Mon.Sys) : Mon.Ev → List Upd
  | .post i c _ _ => if i = j then [content s.heap c] else []
  | _ => []

theorem callsTo_snoc (j : Nat) (e : Mon.Ev) : ∀ (es : List Mon.Ev) s, callsTo j s (es ++ [e]) = callsTo j s es ++ call j (Mon.run s es) e
  | [], s => by cases e <;> simp [callsTo, call, Mon.run]
  | x :: es, s => by
    simp only [List.cons_append, callsTo]
    rw [callsTo_snoc j e es, List.append_assoc]; rfl

theorem callsTo_nil {j : Nat} : ∀ {es : List Mon.Ev} {s : Mon.Sys}, callsTo j s es = [] → ∀ c mb f, Mon.Ev.post j c mb f ∉ es
  | [], _, _, _, _, _, h => by cases h
  | x :: es, s, h0, c, mb, f, h => by
    simp only [callsTo, List.append_eq_nil_iff] at h0
    rcases List.mem_cons.1 h with rfl | h
    · simp at h0
    · exact callsTo_nil h0.2 c mb f h

structure Base (w : World) : Prop where
  sys : w.sys = Mon.run Spec.Mon.start w.trace
  nofin : ∀ j, Mon.Ev.finish j ∉ w.trace
  cnt : ∀ j, tot j w ≤ 1
  fresh : ∀ j, w.sys.mons.length ≤ j → tot j w = 0 ∧ calls j w = []
  fanle : ∀ j, w.fan.count j ≤ w.subscribers.count j
  idle : ∀ j, (j ∈ w.mpending ∨ ∃ a ∈ w.attaching, a.sub = j ∧ a.connected = false) → calls j w = []
  cell : ∀ a ∈ w.attaching, a.cell < w.sys.heap.length
  fanCell : w.fan ≠ [] → w.fanCell < w.sys.heap.length

theorem Base.sys_act {w : World} (h : Base w) (e : Mon.Ev) : (w.act e).sys = Mon.run Spec.Mon.start (w.act e).trace := by
  simp only [World.act]; rw [Mon.run_snoc, h.sys]

theorem Base.calls_act {w : World} (h : Base w) (j : Nat) (e : Mon.Ev) : calls j (w.act e) = calls j w ++ call j w.sys e := by
  simp only [calls, World.act]; rw [callsTo_snoc, h.sys]

theorem heap_mono (s : Mon.Sys) (e : Mon.Ev) : s.heap.length ≤ (Mon.step s e).heap.length := by
  rcases Mon.step_heap s e with h | ⟨u, _, h⟩ | ⟨j, c, mb, f, b, _, _, h⟩ <;> rw [h] <;> simp

theorem Base.act {w : World} (h : Base w) (e : Mon.Ev) (h1 : ∀ j c mb f, e ≠ .post j c mb f) (h2 : ∀ j, e ≠ .finish j) : Base (w.act e) := by
  have hc : ∀ j, calls j (w.act e) = calls j w := fun j => by
    rw [h.calls_act]
    cases e with
    | post i c mb f => exact absurd rfl (h1 i c mb f)
    | _ => simp [call]
  refine ⟨h.sys_act e, fun j hj => ?_, h.cnt, fun j hj => ?_, h.fanle, fun j hj => by rw [hc]; exact h.idle j hj,
    fun a ha => Nat.lt_of_lt_of_le (h.cell a ha) (heap_mono _ _), fun hf => Nat.lt_of_lt_of_le (h.fanCell hf) (heap_mono _ _)⟩
  · rcases List.mem_append.1 hj with hj | hj
    · exact h.nofin j hj
    · exact h2 j (List.mem_singleton.1 hj).symm
  · rw [hc]
    refine h.fresh j (Nat.le_trans ?_ hj)
    simp only [World.act, Mon.step_len]; omega

theorem Base.post {w : World} (h : Base w) (i c : Nat) (hm : i ∉ w.mpending) (ha : ∀ a ∈ w.attaching, a.sub = i → a.connected = true)
    (ht : tot i w ≠ 0) : Base (w.act (.post i c false false)) := by
  have hc : ∀ j, i ≠ j → calls j (w.act (.post i c false false)) = calls j w := fun j hj => by rw [h.calls_act]; simp [call, hj]
  refine ⟨h.sys_act _, fun j hj => ?_, h.cnt, fun j hj => ?_, h.fanle, fun j hj => ?_,
    fun a ha => Nat.lt_of_lt_of_le (h.cell a ha) (heap_mono _ _), fun hf => Nat.lt_of_lt_of_le (h.fanCell hf) (heap_mono _ _)⟩
  · rcases List.mem_append.1 hj with hj | hj
    · exact h.nofin j hj
    · simp at hj
  · have hj' : w.sys.mons.length ≤ j := by
      simp only [World.act, Mon.step_len] at hj; exact hj
    have := h.fresh j hj'
    by_cases hij : i = j
    · subst hij; exact absurd this.1 ht
    · rw [hc j hij]; exact this
  · by_cases hij : i = j
    · subst hij
      rcases hj with hj | ⟨a, ha', h1, h2⟩
      · exact absurd hj hm
      · rw [ha a ha' h1] at h2; cases h2
    · rw [hc j hij]; exact h.idle j hj

theorem mem_att {i : Nat} {l : List Attach} : (∃ a ∈ l, a.sub = i) ↔ l.countP (fun a => a.sub == i) ≠ 0 := by
  rw [Nat.ne_zero_iff_zero_lt, List.countP_pos_iff]
  simp

/-- the flag of connectSub() -/
def mark (i : Nat) (l : List Attach) : List Attach := l.map fun b => if b.sub = i then { b with connected := true } else b

theorem mark_count (i j : Nat) (l : List Attach) : (mark i l).countP (fun a => a.sub == j) = l.countP (fun a => a.sub == j) := by
  unfold mark
  rw [List.countP_map]
  congr 1
  funext b
  simp only [Function.comp]
  split <;> rfl

theorem mem_mark {i : Nat} {l : List Attach} {a : Attach} (h : a ∈ mark i l) : (a ∈ l ∧ a.sub ≠ i) ∨ ∃ b ∈ l, b.sub = i ∧ a = { b with connected := true } := by
  obtain ⟨b, hb, rfl⟩ := List.mem_map.1 h
  split
  · rename_i hi; exact .inr ⟨b, hb, hi, rfl⟩
  · rename_i hi; exact .inl ⟨hb, hi⟩

theorem Base.mark {w : World} (h : Base w) (i : Nat) : Base { w with attaching := mark i w.attaching } := by
  have ht : ∀ j, tot j { w with attaching := SPV.mark i w.attaching } = tot j w := fun j => by simp only [tot, mark_count]
  refine ⟨h.sys, h.nofin, fun j => by rw [ht]; exact h.cnt j, fun j hj => by rw [ht]; exact h.fresh j hj, h.fanle, fun j hj => ?_, fun a ha => ?_, h.fanCell⟩
  · refine h.idle j ?_
    rcases hj with hj | ⟨a, ha, h1, h2⟩
    · exact .inl hj
    · rcases mem_mark ha with ⟨h3, _⟩ | ⟨b, _, _, rfl⟩
      · exact .inr ⟨a, h3, h1, h2⟩
      · simp at h2
  · rcases mem_mark ha with ⟨h3, _⟩ | ⟨b, hb, _, rfl⟩
    · exact h.cell a h3
    · exact h.cell b hb

/-- fields which matter for subscriptions -/
theorem Base.congr {w w' : World} (h : Base w) (h1 : w'.sys = w.sys) (h2 : w'.trace = w.trace) (h3 : w'.mpending = w.mpending)
    (h4 : w'.attaching = w.attaching) (h5 : w'.subscribers = w.subscribers) (h6 : w'.fan = w.fan) (h7 : w'.fanCell = w.fanCell) : Base w' := by
  have ht : ∀ j, tot j w' = tot j w := fun j => by simp only [tot, h3, h4, h5]
  have hc : ∀ j, calls j w' = calls j w := fun j => by simp only [calls, h2]
  exact ⟨by rw [h1, h2]; exact h.sys, by rw [h2]; exact h.nofin, fun j => by rw [ht]; exact h.cnt j,
    fun j hj => by rw [ht, hc]; exact h.fresh j (h1 ▸ hj), by rw [h6, h5]; exact h.fanle, fun j hj => by rw [hc]; rw [h3, h4] at hj; exact h.idle j hj,
    by rw [h4, h1]; exact h.cell, by rw [h6, h7, h1]; exact h.fanCell⟩

theorem erase_count_le (l : List Nat) (i j : Nat) : (l.erase i).count j ≤ l.count j := List.Sublist.count_le _ List.erase_sublist

theorem base_connect {w : World} (h : Base w) (i : Nat) : Base (connect w i) := by
  unfold connect
  split
  · rename_i a m ha hm
    have hmem := List.mem_of_find?_eq_some ha
    have hp := List.find?_some ha
    simp only [Bool.and_eq_true, beq_iff_eq, Bool.not_eq_true'] at hp
    have hcount : w.attaching.countP (fun a => a.sub == i) ≠ 0 := mem_att.1 ⟨a, hmem, hp.1⟩
    have htot := h.cnt i
    split
    · have h1 : Base ({ w with attaching := mark i w.attaching }.act (.setup i true)) := (h.mark i).act _ (by simp) (by simp)
      have h2 := h1.post i a.cell (fun hmp => by
        have : w.mpending.count i ≠ 0 := by
          have := List.count_pos_iff.2 (show i ∈ w.mpending from hmp)
          omega
        unfold tot at htot; omega) (fun b hb hi => by
          rcases mem_mark hb with ⟨_, h⟩ | ⟨b', _, _, rfl⟩
          · exact absurd hi h
          · rfl) (by
          show tot i { w with attaching := mark i w.attaching } ≠ 0
          simp only [tot, mark_count]; omega)
      exact h2
    · -- gone
      have hle : ∀ j, (w.attaching.filter fun b => b.sub != i).countP (fun a => a.sub == j) ≤ w.attaching.countP (fun a => a.sub == j) :=
        fun j => List.Sublist.countP_le List.filter_sublist
      refine ⟨h.sys, h.nofin, fun j => ?_, fun j hj => ?_, h.fanle, fun j hj => ?_, fun b hb => h.cell b (List.mem_filter.1 hb).1, h.fanCell⟩
      · have := h.cnt j; have := hle j; simp only [tot, World.say] at *; omega
      · have := h.fresh j hj; have := hle j
        refine ⟨?_, (h.fresh j hj).2⟩
        simp only [tot, World.say] at *; omega
      · refine h.idle j ?_
        rcases hj with hj | ⟨b, hb, h1⟩
        · exact .inl hj
        · exact .inr ⟨b, (List.mem_filter.1 hb).1, h1⟩
  · exact h

theorem base_insert {w : World} (h : Base w) (hf : w.fan = []) (i : Nat) : Base (insert w i) := by
  unfold insert
  split
  · rename_i ha
    obtain ⟨a, hmem, hp⟩ := List.any_eq_true.1 ha
    simp only [Bool.and_eq_true, beq_iff_eq] at hp
    have hcount : w.attaching.countP (fun a => a.sub == i) ≠ 0 := mem_att.1 ⟨a, hmem, hp.1⟩
    have htot := h.cnt i
    have hns : w.subscribers.count i = 0 := by unfold tot at htot; omega
    have hni : i ∉ w.subscribers := List.count_eq_zero.1 hns
    rw [if_neg hni]
    have hle : ∀ j, (w.attaching.filter fun b => b.sub != i).countP (fun a => a.sub == j) + (w.subscribers ++ [i]).count j
        ≤ w.attaching.countP (fun a => a.sub == j) + w.subscribers.count j := fun j => by
      have := List.Sublist.countP_le (p := fun a : Attach => a.sub == j) (List.filter_sublist (p := fun b : Attach => b.sub != i) (l := w.attaching))
      rw [List.count_append]
      by_cases hij : i = j
      · subst hij
        have : (w.attaching.filter fun b => b.sub != i).countP (fun a => a.sub == i) = 0 := by
          rw [List.countP_eq_zero]
          intro b hb
          have := (List.mem_filter.1 hb).2
          simpa using this
        simp; omega
      · rw [List.count_singleton, if_neg (by simpa using hij)]; omega
    refine ⟨h.sys, h.nofin, fun j => ?_, fun j hj => ?_, fun j => by simp only [hf]; simp, fun j hj => ?_, fun b hb => h.cell b (List.mem_filter.1 hb).1, h.fanCell⟩
    · have := h.cnt j; have := hle j; simp only [tot] at *; omega
    · have := h.fresh j hj; have := hle j
      refine ⟨?_, (h.fresh j hj).2⟩
      simp only [tot] at *; omega
    · refine h.idle j ?_
      rcases hj with hj | ⟨b, hb, h1⟩
      · exact .inl hj
      · exact .inr ⟨b, (List.mem_filter.1 hb).1, h1⟩
  · exact h

theorem base_subscribe {w : World} (h : Base w) (p : Bool) (n : Nat) (q : Option Nat) (mask : List Bool) : Base (subscribe w p n q mask) := by
  have h1 := h.act (.subscribe p n q mask) (by simp) (by simp)
  have hlen : (w.act (.subscribe p n q mask)).sys.mons.length = w.sys.mons.length + 1 := by simp [World.act, Mon.step_len]
  have hfr := h.fresh w.sys.mons.length (Nat.le_refl _)
  have hcalls : ∀ j, calls j (w.act (.subscribe p n q mask)) = calls j w := fun j => by rw [h.calls_act]; simp [call]
  unfold subscribe
  simp only
  split
  · refine ⟨h1.sys, h1.nofin, fun j => ?_, fun j hj => ?_, h1.fanle, fun j hj => ?_, h1.cell, h1.fanCell⟩
    · have := h1.cnt j
      simp only [tot, List.count_append, List.count_singleton] at *
      split
      · rename_i hj
        have hj : w.sys.mons.length = j := by simpa using hj
        subst hj
        have := hfr.1
        simp only [World.act] at *; omega
      · omega
    · have hj' : w.sys.mons.length + 1 ≤ j := by simp only at hj; rw [hlen] at hj; exact hj
      have := h1.fresh j (by rw [hlen]; exact hj')
      refine ⟨?_, this.2⟩
      simp only [tot, List.count_append, List.count_singleton] at *
      rw [if_neg (by simp; omega)]; omega
    · by_cases hj0 : j = w.sys.mons.length
      · subst hj0
        have := hcalls w.sys.mons.length
        rw [hfr.2] at this; exact this
      · refine h1.idle j ?_
        rcases hj with hj | hj
        · rcases List.mem_append.1 hj with hj | hj
          · exact .inl hj
          · exact absurd (by simpa using hj) hj0
        · exact .inr hj
  · rename_i ty v hcur
    have h2 := h1.act (.value v) (by simp) (by simp)
    have hlen2 : ((w.act (.subscribe p n q mask)).act (.value v)).sys.mons.length = w.sys.mons.length + 1 := by rw [← hlen]; simp [World.act, Mon.step_len]
    have hheap : ((w.act (.subscribe p n q mask)).act (.value v)).sys.heap.length = (w.act (.subscribe p n q mask)).sys.heap.length + 1 := by
      simp [World.act, Mon.step]
    have hcalls2 : ∀ j, calls j ((w.act (.subscribe p n q mask)).act (.value v)) = calls j w := fun j => by
      rw [h1.calls_act, hcalls]; simp [call]
    refine ⟨h2.sys, h2.nofin, fun j => ?_, fun j hj => ?_, h2.fanle, fun j hj => ?_, fun a ha => ?_, h2.fanCell⟩
    · have := h2.cnt j
      simp only [tot, World.say, List.countP_append, List.countP_singleton] at *
      split
      · rename_i hj
        have hj : w.sys.mons.length = j := by simpa using hj
        subst hj
        have := hfr.1
        simp only [World.act] at *; omega
      · simp only [World.act] at *; omega
    · have hj' : w.sys.mons.length + 1 ≤ j := by simp only [World.say] at hj; rw [hlen2] at hj; exact hj
      have := h2.fresh j (by rw [hlen2]; exact hj')
      refine ⟨?_, this.2⟩
      simp only [tot, World.say, List.countP_append, List.countP_singleton] at *
      rw [if_neg (by simp; omega)]
      simp only [World.act] at *; omega
    · by_cases hj0 : j = w.sys.mons.length
      · subst hj0
        have := hcalls2 w.sys.mons.length
        rw [hfr.2] at this; exact this
      · refine h2.idle j ?_
        rcases hj with hj | ⟨a, ha, h3⟩
        · exact .inl hj
        · rcases List.mem_append.1 ha with ha | ha
          · exact .inr ⟨a, ha, h3⟩
          · have : a = ⟨w.sys.mons.length, (w.act (.subscribe p n q mask)).sys.heap.length, false⟩ := by simpa using ha
            subst this
            exact absurd h3.1.symm hj0
    · rcases List.mem_append.1 ha with ha | ha
      · exact h2.cell a ha
      · have : a = ⟨w.sys.mons.length, (w.act (.subscribe p n q mask)).sys.heap.length, false⟩ := by simpa using ha
        subst this
        show _ < ((w.act (.subscribe p n q mask)).act (.value v)).sys.heap.length
        rw [hheap]; exact Nat.lt_succ_self _

theorem base_open {w : World} (h : Base w) (ty : Nat) (v : Upd) : Base («open» w ty v) := by
  unfold «open»
  split
  · exact h.congr rfl rfl rfl rfl rfl rfl rfl
  · have h1 := h.act (.value v) (by simp) (by simp)
    have hheap : (w.act (.value v)).sys.heap.length = w.sys.heap.length + 1 := by simp [World.act, Mon.step]
    have hcnt : ∀ j, (w.mpending.map fun i => (⟨i, w.sys.heap.length, false⟩ : Attach)).countP (fun a => a.sub == j) = w.mpending.count j := fun j => by
      rw [List.countP_map, List.count]; rfl
    refine ⟨h1.sys, h1.nofin, fun j => ?_, fun j hj => ?_, h1.fanle, fun j hj => ?_, fun a ha => ?_, h1.fanCell⟩
    · have := h1.cnt j
      simp only [tot, World.say, World.act, List.countP_append, hcnt, List.count_nil] at *
      omega
    · have := h1.fresh j hj
      refine ⟨?_, this.2⟩
      have := this.1
      simp only [tot, World.say, World.act, List.countP_append, hcnt, List.count_nil] at *
      omega
    · refine h1.idle j ?_
      rcases hj with hj | ⟨a, ha, h3, h4⟩
      · simp at hj
      · rcases List.mem_append.1 ha with ha | ha
        · exact .inr ⟨a, ha, h3, h4⟩
        · obtain ⟨i, hi, rfl⟩ := List.mem_map.1 ha
          subst h3
          exact .inl hi
    · rcases List.mem_append.1 ha with ha | ha
      · exact h1.cell a ha
      · obtain ⟨i, hi, rfl⟩ := List.mem_map.1 ha
        show _ < (w.act (.value v)).sys.heap.length
        rw [hheap]; exact Nat.lt_succ_self _

theorem base_post {w : World} (h : Base w) (ty : Nat) (v : Upd) : Base (post w ty v) := by
  unfold post
  split
  · exact h.congr rfl rfl rfl rfl rfl rfl rfl
  · split
    · exact h.congr rfl rfl rfl rfl rfl rfl rfl
    · have h1 := h.act (.value v) (by simp) (by simp)
      refine ⟨h1.sys, h1.nofin, h1.cnt, h1.fresh, fun j => Nat.le_refl _, h1.idle, h1.cell, fun _ => ?_⟩
      simp [World.say, World.act, Mon.step]

theorem fan_sub {w : World} (h : Base w) {i : Nat} (hi : i ∈ w.fan) : i ∈ w.subscribers ∧ i ∉ w.mpending ∧ (∀ a ∈ w.attaching, a.sub ≠ i) ∧ tot i w ≠ 0 := by
  have h1 := h.fanle i
  have h2 := List.count_pos_iff.2 hi
  have h3 := h.cnt i
  unfold tot at h3
  refine ⟨List.count_pos_iff.1 (by omega), fun hm => ?_, fun a ha hs => ?_, by unfold tot; omega⟩
  · have := List.count_pos_iff.2 hm; omega
  · have := mem_att.1 ⟨a, ha, hs⟩; omega

theorem base_fan {w : World} (h : Base w) : Base (fan w) := by
  unfold fan
  split
  · exact h
  · rename_i i rest hf
    obtain ⟨_, hm, ha, ht⟩ := fan_sub h (i := i) (by rw [hf]; simp)
    have h1 := h.post i w.fanCell hm (fun a h2 h3 => absurd h3 (ha a h2)) ht
    refine ⟨h1.sys, h1.nofin, h1.cnt, h1.fresh, fun j => ?_, h1.idle, h1.cell, fun _ => h1.fanCell (by show w.fan ≠ []; rw [hf]; simp)⟩
    refine Nat.le_trans ?_ (h.fanle j)
    rw [hf]
    exact List.Sublist.count_le _ (List.sublist_cons_self i rest)

theorem base_subClosed {w : World} (h : Base w) (hf : w.fan = []) (i : Nat) : Base (subClosed w i) := by
  have h1 := h.act (.close i) (by simp) (by simp)
  have e1 := fun j => erase_count_le w.mpending i j
  have e2 := fun j => erase_count_le w.subscribers i j
  refine ⟨h1.sys, h1.nofin, fun j => ?_, fun j hj => ?_, fun j => ?_, fun j hj => ?_, h1.cell, h1.fanCell⟩
  · have := h1.cnt j; have := e1 j; have := e2 j
    simp only [tot, subClosed, World.act] at *; omega
  · have := h1.fresh j hj; have := e1 j; have := e2 j
    refine ⟨?_, (h1.fresh j hj).2⟩
    simp only [tot, subClosed, World.act] at *; omega
  · show w.fan.count j ≤ _
    rw [hf]; simp
  · refine h1.idle j ?_
    rcases hj with hj | hj
    · exact .inl (List.mem_of_mem_erase hj)
    · exact .inr hj

theorem base_close {w : World} (h : Base w) (hf : w.fan = []) : Base (close w) := by
  refine ⟨h.sys, h.nofin, fun j => ?_, fun j hj => ?_, fun j => ?_, h.idle, h.cell, h.fanCell⟩
  · have := h.cnt j
    simp only [tot, close, World.say, List.count_nil] at *; omega
  · have := h.fresh j hj
    refine ⟨?_, this.2⟩
    have := this.1
    simp only [tot, close, World.say, List.count_nil] at *; omega
  · show w.fan.count j ≤ _
    rw [hf]; simp

theorem not_locked {w : World} (h : ¬ w.locked = true) : w.fan = [] := by
  simp only [World.locked] at h
  cases hf : w.fan with
  | nil => rfl
  | cons x l => rw [hf] at h; simp at h

theorem base_step {w : World} (h : Base w) (e : Ev) : Base (step w e) := by
  cases e with
  | peer e =>
    simp only [step]
    split
    · rename_i hp
      exact h.act e (fun j c mb f he => by subst he; simp [peerOk] at hp) (fun j he => by subst he; simp [peerOk] at hp)
    · exact h
  | connect i => exact base_connect h i
  | fan => exact base_fan h
  | opClosed i => exact h.congr rfl rfl rfl rfl rfl rfl rfl
  | attach => simp only [step]; split; exact h; exact h.congr rfl rfl rfl rfl rfl rfl rfl
  | chanClosed c =>
    simp only [step]; split
    · exact h
    · unfold chanClosed; split
      · exact h.congr rfl rfl rfl rfl rfl rfl rfl
      · exact h
  | op =>
    simp only [step]; split
    · exact h
    · unfold op; split <;> exact h.congr rfl rfl rfl rfl rfl rfl rfl
  | subscribe p n q mask => simp only [step]; split; exact h; exact base_subscribe h p n q mask
  | subClosed i =>
    simp only [step]; split
    · exact h
    · rename_i hl; exact base_subClosed h (not_locked hl) i
  | insert i =>
    simp only [step]; split
    · exact h
    · rename_i hl; exact base_insert h (not_locked hl) i
  | «open» ty v => simp only [step]; split; exact h; exact base_open h ty v
  | post ty v => simp only [step]; split; exact h; exact base_post h ty v
  | close =>
    simp only [step]; split
    · exact h
    · rename_i hl; exact base_close h (not_locked hl)
  | fetch => simp only [step]; split; exact h; exact h.congr rfl rfl rfl rfl rfl rfl rfl

theorem run_snoc (w : World) (es : List Ev) (e : Ev) : run w (es ++ [e]) = step (run w es) e := by simp [run, List.foldl_append]

theorem snoc_ind {P : List Ev → Prop} (h0 : P []) (h1 : ∀ es e, P es → P (es ++ [e])) : ∀ es, P es := by
  intro es
  induction h : es.length generalizing es with
  | zero => cases es <;> simp_all
  | succ n ih =>
    rcases List.eq_nil_or_concat es with rfl | ⟨l, e, rfl⟩
    · simp at h
    · simp only [List.concat_eq_append] at h ⊢
      exact h1 l e (ih l (by simpa using h))

theorem run_base : ∀ es, Base (run start es) := by
  apply snoc_ind
  · refine ⟨rfl, fun j h => (by cases h), fun j => (by simp [run, start, tot]), fun j _ => (by simp [run, start, tot, calls, callsTo]), fun j => (by simp [run, start]),
      fun j _ => (by simp [run, start, calls, callsTo]), fun a ha => (by cases ha), fun h => absurd rfl h⟩
  · intro es e h; rw [run_snoc]; exact base_step h e

/-! ### what a subscriber is told -/

def isAtt (i : Nat) : Out → Bool
  | .attached j _ => j == i
  | _ => false

def started (i : Nat) (l : List Out) : Bool := l.any (isAtt i)

theorem due_append (i : Nat) : ∀ (l o : List Out) (b : Bool), due i b (l ++ o) = due i b l ++ due i (b || started i l) o
  | [], o, b => by simp [due, started]
  | x :: l, o, b => by
    have h := due_append i l o
    cases x with
    | attached j v =>
      simp only [List.cons_append, due]
      by_cases hj : j = i
      · simp [hj, h, started, isAtt]
      · have : (j == i) = false := by simpa using hj
        simp [hj, h, started, isAtt, this]
    | posted ty v => simp only [List.cons_append, due, h, List.append_assoc]; simp [started, isAtt]
    | _ => simp only [List.cons_append, due, h]; simp [started, isAtt]

theorem due_nil {i : Nat} : ∀ {l : List Out}, started i l = false → due i false l = []
  | [], _ => rfl
  | x :: l, h => by
    have h1 : started i l = false := by
      simp only [started, List.any_cons, Bool.or_eq_false_iff] at h ⊢; exact h.2
    cases x with
    | attached j v =>
      have : j ≠ i := by
        simp only [started, List.any_cons, Bool.or_eq_false_iff, isAtt] at h
        simpa using h.1
      simp only [due, if_neg this]; exact due_nil h1
    | posted ty v => simp only [due]; simpa using due_nil h1
    | _ => simp only [due]; exact due_nil h1

/-- says nothing about values -/
def neutral : Out → Bool
  | .attached _ _ => false
  | .posted _ _ => false
  | _ => true

theorem due_neutral {i : Nat} {b : Bool} : ∀ {l : List Out}, l.all neutral = true → due i b l = [] ∧ started i l = false
  | [], _ => ⟨rfl, rfl⟩
  | x :: l, h => by
    simp only [List.all_cons, Bool.and_eq_true] at h
    have := due_neutral (i := i) (b := b) h.2
    cases x with
    | attached j v => simp [neutral] at h
    | posted ty v => simp [neutral] at h
    | _ => simp only [due]; exact ⟨this.1, by simpa [started, isAtt] using this.2⟩

theorem due_attached (i : Nat) (v : Upd) : ∀ (l : List Nat) (b : Bool), due i b (l.map fun j => .attached j v) = List.replicate (l.count i) v
  | [], _ => rfl
  | j :: l, b => by
    simp only [List.map_cons, due, List.count_cons]
    by_cases hj : j = i
    · simp [hj, due_attached i v l, List.replicate_succ]
    · simp [hj, due_attached i v l]

theorem started_append (i : Nat) (a b : List Out) : started i (a ++ b) = (started i a || started i b) := by simp [started]

/-- all that the subscriber wanted to know of `v` is sent or queued, apart from the update which post() in progress will pass to it -/
def Told (i : Nat) (w : World) (v : Upd) : Prop :=
  ∀ m, w.sys.mons[i]? = some m → m.state ≠ .creating ∧
    ∀ k, m.mask[k]? = some true → view w.sys.heap m k = fld k v ∨ (i ∈ w.fan ∧ fld k (content w.sys.heap w.fanCell) ≠ none)

structure Good (i : Nat) (w : World) : Prop where
  fanv : w.fan ≠ [] → ∃ ty v, w.current = some (ty, v) ∧ ∀ k x, fld k (content w.sys.heap w.fanCell) = some x → fld k v = some x
  mp : (i ∈ w.mpending ∨ w.sys.mons.length ≤ i) → started i w.out = false
  att : ∀ a ∈ w.attaching, a.sub = i → w.fan = [] ∧ ∃ ty v, w.current = some (ty, v) ∧ due i false w.out = [v] ∧ started i w.out = true ∧
    (a.connected = false → content w.sys.heap a.cell = v) ∧ (a.connected = true → calls i w = [v] ∧ Told i w v)
  sub : i ∈ w.subscribers → ∃ ty v, w.current = some (ty, v) ∧ started i w.out = true ∧
    calls i w ++ (if i ∈ w.fan then [content w.sys.heap w.fanCell] else []) = due i false w.out ∧ Told i w v

theorem Good.congr {i : Nat} {w w' : World} (h : Good i w) (o : List Out) (ho : o.all neutral = true) (h0 : w'.out = w.out ++ o) (h1 : w'.sys = w.sys)
    (h2 : w'.trace = w.trace) (h3 : w'.mpending = w.mpending) (h4 : w'.attaching = w.attaching) (h5 : w'.subscribers = w.subscribers)
    (h6 : w'.fan = w.fan) (h7 : w'.fanCell = w.fanCell) (h8 : w'.current = w.current) : Good i w' := by
  have hd : due i false w'.out = due i false w.out := by rw [h0, due_append, (due_neutral ho).1, List.append_nil]
  have hst : started i w'.out = started i w.out := by rw [h0, started_append, (due_neutral (b := false) ho).2, Bool.or_false]
  have hc : calls i w' = calls i w := by simp only [calls, h2]
  have ht : ∀ v, Told i w v → Told i w' v := fun v h => by simp only [Told, h1, h6, h7]; exact h
  refine ⟨by rw [h6, h8, h1, h7]; exact h.fanv, by rw [h3, h1, hst]; exact h.mp, fun a ha hs => ?_, fun hs => ?_⟩
  · obtain ⟨a1, ty, v, a2, a3, a4, a5, a6⟩ := h.att a (h4 ▸ ha) hs
    exact ⟨h6.trans a1, ty, v, h8.trans a2, hd.trans a3, hst.trans a4, fun h => by rw [h1]; exact a5 h, fun h => by rw [hc]; exact ⟨(a6 h).1, ht v (a6 h).2⟩⟩
  · obtain ⟨ty, v, a1, a2, a3, a4⟩ := h.sub (h5 ▸ hs)
    exact ⟨ty, v, h8.trans a1, hst.trans a2, by rw [hc, hd, h6, h1, h7]; exact a3, ht v a4⟩

theorem content_old (heap : List Upd) (u : Upd) (c : Nat) (h : c < heap.length) : content (heap ++ [u]) c = content heap c := Mon.content_append _ _ _ h

/-- an event of a subscription which posts nothing, or the first Value of another subscription -/
theorem Good.act {i : Nat} {w : World} (h : Good i w) (hb : Base w) (e : Mon.Ev) (h1 : ∀ c mb f, e ≠ .post i c mb f) (h2 : e ≠ .finish i)
    (hh : (Mon.step w.sys e).heap = w.sys.heap ∨ ∃ u, e = .value u) : Good i (w.act e) := by
  have hc : calls i (w.act e) = calls i w := by
    rw [hb.calls_act]
    cases e with
    | post j c mb f =>
      by_cases hj : j = i
      · subst hj; exact absurd rfl (h1 c mb f)
      · simp [call, hj]
    | _ => simp [call]
  have hcon : ∀ c, c < w.sys.heap.length → content (Mon.step w.sys e).heap c = content w.sys.heap c := by
    intro c hlt
    rcases hh with hh | ⟨u, rfl⟩
    · rw [hh]
    · exact content_old _ _ _ hlt
  have ht : ∀ v, (w.fan ≠ [] → w.fanCell < w.sys.heap.length) → (∃ m, w.sys.mons[i]? = some m) → Told i w v → Told i (w.act e) v := by
    intro v hf ⟨m, hm⟩ hT m' hm'
    have hm0 := hm
    rw [hb.sys] at hm
    have hfc : ∀ k, (i ∈ w.fan ∧ fld k (content w.sys.heap w.fanCell) ≠ none) → (i ∈ w.fan ∧ fld k (content (Mon.step w.sys e).heap w.fanCell) ≠ none) :=
      fun k ⟨a, b⟩ => ⟨a, by rw [hcon _ (hf (List.ne_nil_of_mem a))]; exact b⟩
    obtain ⟨hT1, hT2⟩ := hT m hm0
    rcases hh with hh | ⟨u, rfl⟩
    · have hh' : (Mon.run Spec.Mon.start (w.trace ++ [e])).heap = (Mon.run Spec.Mon.start w.trace).heap := by rw [Mon.run_snoc, ← hb.sys]; exact hh
      obtain ⟨m2, a1, a2, a3, a4, a5⟩ := Mon.view_step_heap hm h1 h2 hh'
      have hs := hb.sys_act e
      rw [hs] at hm'
      simp only [World.act] at hm'
      rw [a1] at hm'
      cases hm'
      refine ⟨a4 hT1, fun k hk => ?_⟩
      rw [a2] at hk
      rcases hT2 k hk with h | h
      · left
        rw [← h, hs]
        simp only [World.act]
        rw [a5 k hk, hb.sys]
      · exact .inr (hfc k h)
    · obtain ⟨a1, a2⟩ := Mon.view_value (u := u) hm
      have hs := hb.sys_act (.value u)
      rw [hs] at hm'
      simp only [World.act] at hm'
      rw [a1] at hm'
      cases hm'
      refine ⟨hT1, fun k hk => ?_⟩
      rcases hT2 k hk with h | h
      · left
        rw [← h, hs]
        simp only [World.act]
        rw [a2 k, hb.sys]
      · exact .inr (hfc k h)
  have hlive : tot i w ≠ 0 → ∃ m, w.sys.mons[i]? = some m := by
    intro h0
    rcases Nat.lt_or_ge i w.sys.mons.length with hl | hl
    · exact ⟨_, List.getElem?_eq_getElem hl⟩
    · exact absurd (hb.fresh i hl).1 h0
  refine ⟨fun hf => ?_, fun hm => h.mp ?_, fun a ha hs => ?_, fun hs => ?_⟩
  · obtain ⟨ty, v, a1, a2⟩ := h.fanv hf
    refine ⟨ty, v, a1, ?_⟩
    show ∀ k x, fld k (content (Mon.step w.sys e).heap w.fanCell) = some x → _
    rw [hcon _ (hb.fanCell hf)]; exact a2
  · rcases hm with hm | hm
    · exact .inl hm
    · refine .inr (Nat.le_trans ?_ hm)
      simp only [World.act, Mon.step_len]; omega
  · obtain ⟨a1, ty, v, a2, a3, a4, a5, a6⟩ := h.att a ha hs
    refine ⟨a1, ty, v, a2, a3, a4, fun hn => ?_, fun hn => ?_⟩
    · exact (hcon _ (hb.cell a ha)).trans (a5 hn)
    · rw [hc]
      refine ⟨(a6 hn).1, ht v hb.fanCell (hlive ?_) (a6 hn).2⟩
      have := mem_att.1 ⟨a, (show a ∈ w.attaching from ha), hs⟩
      unfold tot; omega
  · obtain ⟨ty, v, a1, a2, a3, a4⟩ := h.sub hs
    refine ⟨ty, v, a1, a2, ?_, ht v hb.fanCell (hlive ?_) a4⟩
    · rw [hc]
      show _ ++ (if i ∈ w.fan then [content (Mon.step w.sys e).heap w.fanCell] else []) = due i false w.out
      rw [← a3]
      congr 1
      split
      · rename_i hi; rw [hcon _ (hb.fanCell (List.ne_nil_of_mem hi))]
      · rfl
    · have := List.count_pos_iff.2 (show i ∈ w.subscribers from hs)
      unfold tot; omega

/-- connectSub() of another subscription -/
theorem good_connect_other {i j : Nat} {w : World} (h : Good i w) (hb : Base w) (hij : j ≠ i) : Good i (connect w j) := by
  unfold connect
  split
  · rename_i a m ha hm
    have hmem := List.mem_of_find?_eq_some ha
    have hp := List.find?_some ha
    simp only [Bool.and_eq_true, beq_iff_eq, Bool.not_eq_true'] at hp
    split
    · have h1 : Good i { w with attaching := mark j w.attaching } := by
        refine ⟨h.fanv, h.mp, fun b hb' hs => ?_, h.sub⟩
        rcases mem_mark hb' with ⟨hm, _⟩ | ⟨b', _, hbi, rfl⟩
        · exact h.att b hm hs
        · exact absurd (hbi.symm.trans hs) hij
      have h2 := h1.act (hb.mark j) (.setup j true) (by simp) (by simp) (.inl rfl)
      have hb2 := (hb.mark j).act (.setup j true) (by simp) (by simp)
      have hnp : ∀ c mb f, Mon.Ev.post j c mb f ∉ w.trace ++ [.setup j true] := by
        have := hb.idle j (.inr ⟨a, hmem, hp⟩)
        intro c mb f hmm
        rcases List.mem_append.1 hmm with h | h
        · exact callsTo_nil this c mb f h
        · simp at h
      have hh := Mon.first_post_heap hnp hb2.nofin a.cell
      have hs2 := hb2.sys
      have h3 := h2.act hb2 (.post j a.cell false false) (fun c mb f he => by cases he; exact hij rfl) (by simp) (.inl (by
        rw [Mon.run_snoc] at hh
        rw [hs2]; exact hh))
      exact h3
    · exact ⟨h.fanv, h.mp, fun b hb' hs => h.att b (List.mem_filter.1 hb').1 hs, h.sub⟩
  · exact h

/-- connectSub() -/
theorem good_connect {i : Nat} {w : World} (h : Good i w) (hb : Base w) : Good i (connect w i) := by
  unfold connect
  split
  · rename_i a m ha hm
    have hmem := List.mem_of_find?_eq_some ha
    have hp := List.find?_some ha
    simp only [Bool.and_eq_true, beq_iff_eq, Bool.not_eq_true'] at hp
    have hat := mem_att.1 ⟨a, hmem, hp.1⟩
    have htot := hb.cnt i
    have hns : i ∉ w.subscribers := fun hs => by
      have := List.count_pos_iff.2 hs
      unfold tot at htot; omega
    have hnm : i ∉ w.mpending := fun hs => by
      have := List.count_pos_iff.2 hs
      unfold tot at htot; omega
    split
    · rename_i hst
      obtain ⟨a1, ty, v, a2, a3, a4, a5, a6⟩ := h.att a hmem hp.1
      have a5 := a5 hp.2
      have hcalls := hb.idle i (.inr ⟨a, hmem, hp⟩)
      have hb2 := (hb.mark i).act (.setup i true) (by simp) (by simp)
      have hs2 : Mon.step w.sys (.setup i true) = Mon.run Spec.Mon.start (w.trace ++ [.setup i true]) := hb2.sys
      have hnp : ∀ c mb f, Mon.Ev.post i c mb f ∉ w.trace ++ [.setup i true] := by
        intro c mb f hmm
        rcases List.mem_append.1 hmm with h | h
        · exact callsTo_nil hcalls c mb f h
        · simp at h
      have hh := Mon.first_post_heap hnp hb2.nofin a.cell
      -- after setup
      have hm1 : (Mon.run Spec.Mon.start (w.trace ++ [.setup i true])).mons[i]? = some (m.setup true) := by
        rw [Mon.run_snoc, ← hb.sys]
        simp only [Mon.step]; rw [Mon.modMon_get _ _ _ _ _ hm, if_pos rfl]
      have hfin : (m.setup true).finished = false := by
        cases hf : (m.setup true).finished
        · rfl
        · exact absurd ((Mon.run_fin i _ _ hm1).asked hf) (hb2.nofin i)
      have hst1 : (m.setup true).state ≠ .creating := by simp [Mon.setup, hst]
      have hun := Mon.run_unposted i _ _ hm1 hnp
      have hheap : (Mon.step (Mon.step w.sys (.setup i true)) (.post i a.cell false false)).heap = w.sys.heap := by
        rw [Mon.run_snoc, ← hs2] at hh
        exact hh
      have hT : Told i (({ w with attaching := mark i w.attaching }.act (.setup i true)).act (.post i a.cell false false)) v := by
        intro m' hm'
        have key : ∀ k, (m.setup true).mask[k]? = some true → m'.mask = (m.setup true).mask ∧ m'.state ≠ .creating ∧
            view w.sys.heap m' k = fld k v := by
          intro k hk
          obtain ⟨m2, b1, b2, b3, b4, b5⟩ := Mon.view_post (c := a.cell) hm1 hst1 hfin hk
          have : m2 = m' := by
            rw [Mon.run_snoc, ← hs2] at b1
            have hm' : (Mon.step (Mon.step w.sys (.setup i true)) (.post i a.cell false false)).mons[i]? = some m' := hm'
            rw [hm'] at b1
            exact (Option.some.inj b1).symm
          subst this
          refine ⟨b2, b4, ?_⟩
          rw [hh] at b5
          have e1 : (Mon.run Spec.Mon.start (w.trace ++ [.setup i true])).heap = w.sys.heap := by rw [Mon.run_snoc, ← hb.sys]; rfl
          rw [e1, a5] at b5
          rw [b5]
          have : view w.sys.heap (m.setup true) k = none := by
            unfold view; rw [hun.1, hun.2]; rfl
          rw [this]; simp
        have hmask : m'.mask = (m.setup true).mask ∧ m'.state ≠ .creating := by
          have hm'' : (Mon.step (Mon.run Spec.Mon.start (w.trace ++ [.setup i true])) (.post i a.cell false false)).mons[i]? = some m' := by
            rw [← hs2]; exact hm'
          obtain ⟨m2, b1, b2⟩ := Mon.step_acts hm1 (.post i a.cell false false)
          rw [hm''] at b1
          cases b1
          cases b2 with
          | same => exact ⟨rfl, hst1⟩
          | push => exact ⟨(Mon.maybeReply_fields _).2.2.2.2.2.2.2.1, by rw [(Mon.maybeReply_fields _).1]; exact hst1⟩
          | poke => exact ⟨(Mon.maybeReply_fields _).2.2.2.2.2.2.2.1, by rw [(Mon.maybeReply_fields _).1]; exact hst1⟩
        refine ⟨hmask.2, fun k hk => .inl ?_⟩
        show view (Mon.step (Mon.step w.sys (.setup i true)) (.post i a.cell false false)).heap m' k = _
        rw [hheap]
        exact (key k (hmask.1 ▸ hk)).2.2
      have hcalls' : calls i (({ w with attaching := mark i w.attaching }.act (.setup i true)).act (.post i a.cell false false)) = [v] := by
        rw [hb2.calls_act, (hb.mark i).calls_act]
        have : calls i { w with attaching := mark i w.attaching } = [] := hcalls
        rw [this]
        simp only [call, List.nil_append, if_true]
        show [content w.sys.heap a.cell] = [v]
        rw [a5]
      refine ⟨fun hf => absurd a1 hf, fun hmp => h.mp ?_, fun b hb' hs => ?_, fun hs => absurd hs hns⟩
      · rcases hmp with hmp | hmp
        · exact absurd hmp hnm
        · refine .inr ?_
          have hmp : (Mon.step (Mon.step w.sys (.setup i true)) (.post i a.cell false false)).mons.length ≤ i := hmp
          simpa [Mon.step_len] using hmp
      · refine ⟨a1, ty, v, a2, a3, a4, fun hn => ?_, fun _ => ⟨hcalls', hT⟩⟩
        rcases mem_mark hb' with ⟨_, hne⟩ | ⟨b', _, _, rfl⟩
        · exact absurd hs hne
        · simp at hn
    · exact ⟨h.fanv, h.mp, fun b hb' hs => h.att b (List.mem_filter.1 hb').1 hs, h.sub⟩
  · exact h

theorem good_insert {i j : Nat} {w : World} (h : Good i w) : Good i (insert w j) := by
  unfold insert
  split
  · rename_i hany
    obtain ⟨a, hmem, hp⟩ := List.any_eq_true.1 hany
    simp only [Bool.and_eq_true, beq_iff_eq] at hp
    refine ⟨h.fanv, h.mp, fun b hb' hs => h.att b (List.mem_filter.1 hb').1 hs, fun hs => ?_⟩
    by_cases hij : j = i
    · subst hij
      obtain ⟨a1, ty, v, a2, a3, a4, a5, a6⟩ := h.att a hmem hp.1
      obtain ⟨c1, c2⟩ := a6 hp.2
      refine ⟨ty, v, a2, a4, ?_, c2⟩
      show calls j w ++ (if j ∈ w.fan then [content w.sys.heap w.fanCell] else []) = due j false w.out
      rw [a1, c1, a3]; rfl
    · refine h.sub ?_
      have hs : i ∈ (if j ∈ w.subscribers then w.subscribers else w.subscribers ++ [j]) := hs
      split at hs
      · exact hs
      · rcases List.mem_append.1 hs with hs | hs
        · exact hs
        · exact absurd (List.mem_singleton.1 hs).symm hij
  · exact h

theorem good_subscribe {i : Nat} {w : World} (h : Good i w) (hb : Base w) (hf : w.fan = []) (p : Bool) (n : Nat) (q : Option Nat) (mask : List Bool) :
    Good i (subscribe w p n q mask) := by
  have h1 := h.act hb (.subscribe p n q mask) (by simp) (by simp) (.inl rfl)
  have hb1 := hb.act (.subscribe p n q mask) (by simp) (by simp)
  have hfr := hb.fresh w.sys.mons.length (Nat.le_refl _)
  unfold subscribe
  simp only
  split
  · refine ⟨h1.fanv, fun hm => ?_, h1.att, h1.sub⟩
    rcases hm with hm | hm
    · rcases List.mem_append.1 hm with hm | hm
      · exact h1.mp (.inl hm)
      · have : i = w.sys.mons.length := by simpa using hm
        exact h.mp (.inr (by omega))
    · exact h1.mp (.inr hm)
  · rename_i ty v hcur
    have hcur : w.current = some (ty, v) := hcur
    have h2 := h1.act hb1 (.value v) (by simp) (by simp) (.inr ⟨v, rfl⟩)
    have hlen2 : ((w.act (.subscribe p n q mask)).act (.value v)).sys.mons.length = w.sys.mons.length + 1 := by simp [World.act, Mon.step_len]
    by_cases hi : i = w.sys.mons.length
    · have hst : started i w.out = false := h.mp (.inr (by omega))
      have hd : due i false (w.out ++ [.attached w.sys.mons.length v]) = [v] := by
        rw [due_append, due_nil hst]; simp [due, hi]
      have hst' : started i (w.out ++ [.attached w.sys.mons.length v]) = true := by
        rw [started_append]; simp [started, isAtt, hi]
      have h0 := hfr.1
      rw [← hi] at h0
      unfold tot at h0
      refine ⟨h2.fanv, fun hm => ?_, fun a ha hs => ?_, fun hs => ?_⟩
      · rcases hm with hm | hm
        · have := List.count_pos_iff.2 (show i ∈ w.mpending from hm); omega
        · have hm : ((w.act (.subscribe p n q mask)).act (.value v)).sys.mons.length ≤ i := hm
          rw [hlen2] at hm; omega
      · rcases List.mem_append.1 ha with ha | ha
        · have := mem_att.1 ⟨a, (show a ∈ w.attaching from ha), hs⟩; omega
        · have : a = ⟨w.sys.mons.length, (w.act (.subscribe p n q mask)).sys.heap.length, false⟩ := by simpa using ha
          subst this
          refine ⟨hf, ty, v, hcur, hd, hst', fun _ => ?_, fun hn => by simp at hn⟩
          show content ((w.act (.subscribe p n q mask)).sys.heap ++ [v]) (w.act (.subscribe p n q mask)).sys.heap.length = v
          simp [content]
      · have := List.count_pos_iff.2 (show i ∈ w.subscribers from hs); omega
    · have hd : due i false (w.out ++ [.attached w.sys.mons.length v]) = due i false w.out := by
        rw [due_append]; simp [due, Ne.symm hi]
      have hst' : started i (w.out ++ [.attached w.sys.mons.length v]) = started i w.out := by
        rw [started_append]
        have : (w.sys.mons.length == i) = false := by simpa using Ne.symm hi
        simp [started, isAtt, this]
      refine ⟨h2.fanv, fun hm => hst'.trans (h2.mp hm), fun a ha hs => ?_, fun hs => ?_⟩
      · rcases List.mem_append.1 ha with ha | ha
        · obtain ⟨a1, ty', v', a2, a3, a4, a5, a6⟩ := h2.att a ha hs
          exact ⟨a1, ty', v', a2, hd.trans a3, hst'.trans a4, a5, a6⟩
        · have : a = ⟨w.sys.mons.length, (w.act (.subscribe p n q mask)).sys.heap.length, false⟩ := by simpa using ha
          subst this
          exact absurd hs.symm hi
      · obtain ⟨ty', v', a2, a3, a4, a5⟩ := h2.sub hs
        exact ⟨ty', v', a2, hst'.trans a3, a4.trans hd.symm, a5⟩

theorem not_attaching {w : World} {i : Nat} (h : attaching w i = false) : ∀ a ∈ w.attaching, a.sub ≠ i := by
  intro a ha hs
  have := List.any_eq_false.1 h a ha
  simp [hs] at this

theorem good_open {i : Nat} {w : World} (h : Good i w) (hb : Base w) (hf : w.fan = []) (hn : attaching w i = false) (ty : Nat) (v : Upd) :
    Good i («open» w ty v) := by
  unfold «open»
  split
  · exact h.congr [.refused] rfl rfl rfl rfl rfl rfl rfl rfl rfl rfl
  · rename_i hcur
    have hcur : w.current = none := by simpa using hcur
    have hn := not_attaching hn
    have hb1 := hb.act (.value v) (by simp) (by simp)
    have hcnt := hb.cnt i
    have hall : ((w.pending.map fun j => Out.connectOp j ty).all neutral) = true := by
      rw [List.all_eq_true]; intro x hx; obtain ⟨j, _, rfl⟩ := List.mem_map.1 hx; rfl
    have hout : ∀ b, due i b (.opened ty v :: w.mpending.map (fun j => .attached j v) ++ w.pending.map (fun j => .connectOp j ty)) = List.replicate (w.mpending.count i) v := by
      intro b
      simp only [List.cons_append, due]
      rw [due_append, due_attached, (due_neutral hall).1, List.append_nil]
    have hstart : started i (.opened ty v :: w.mpending.map (fun j => .attached j v) ++ w.pending.map (fun j => .connectOp j ty)) = decide (i ∈ w.mpending) := by
      have e1 : ∀ l, started i (.opened ty v :: l) = started i l := fun l => by simp [started, isAtt]
      rw [List.cons_append, e1, started_append, (due_neutral (i := i) (b := false) hall).2, Bool.or_false]
      rw [Bool.eq_iff_iff]
      simp only [started, List.any_map, List.any_eq_true, Function.comp, isAtt, beq_iff_eq, decide_eq_true_eq]
      constructor
      · rintro ⟨x, hx, rfl⟩; exact hx
      · intro hx; exact ⟨i, hx, rfl⟩
    refine ⟨fun hf' => absurd hf hf', fun hm => ?_, fun a ha hs => ?_, fun hs => ?_⟩
    · rcases hm with hm | hm
      · simp at hm
      · have hm : (w.act (.value v)).sys.mons.length ≤ i := hm
        have hm : w.sys.mons.length ≤ i := by simpa [World.act, Mon.step_len] using hm
        have hnm : i ∉ w.mpending := fun hx => by
          have := List.count_pos_iff.2 hx
          have h0 := (hb.fresh i hm).1
          unfold tot at h0; omega
        show started i (w.out ++ (.opened ty v :: w.mpending.map (fun j => .attached j v) ++ w.pending.map (fun j => .connectOp j ty))) = false
        rw [started_append, hstart, h.mp (.inr hm)]
        simpa using hnm
    · rcases List.mem_append.1 ha with ha | ha
      · exact absurd hs (hn a ha)
      · obtain ⟨j, hj, rfl⟩ := List.mem_map.1 ha
        have hs : j = i := hs
        subst hs
        have hj : j ∈ w.mpending := hj
        have hst := h.mp (.inl hj)
        refine ⟨hf, ty, v, rfl, ?_, ?_, fun _ => ?_, fun hc => by simp at hc⟩
        · show due j false (w.out ++ (.opened ty v :: w.mpending.map (fun j => .attached j v) ++ w.pending.map (fun j => .connectOp j ty))) = [v]
          rw [due_append, due_nil hst, hout]
          have := List.count_pos_iff.2 hj
          have : w.mpending.count j = 1 := by unfold tot at hcnt; omega
          rw [this]; rfl
        · show started j (w.out ++ (.opened ty v :: w.mpending.map (fun j => .attached j v) ++ w.pending.map (fun j => .connectOp j ty))) = true
          rw [started_append, hstart]; simp [hj]
        · show content (w.sys.heap ++ [v]) w.sys.heap.length = v
          simp [content]
    · obtain ⟨ty', v', a1, _⟩ := h.sub hs
      rw [hcur] at a1; cases a1

theorem good_post {i : Nat} {w : World} (h : Good i w) (hb : Base w) (hf : w.fan = []) (hn : attaching w i = false) (ty : Nat) (v : Upd) :
    Good i (post w ty v) := by
  unfold post
  split
  · exact h.congr [.refused] rfl rfl rfl rfl rfl rfl rfl rfl rfl rfl
  · rename_i ty0 u hcur
    split
    · exact h.congr [.refused] rfl rfl rfl rfl rfl rfl rfl rfl rfl rfl
    · have h1 := h.act hb (.value v) (by simp) (by simp) (.inr ⟨v, rfl⟩)
      have hn := not_attaching hn
      have hcell : content (w.act (.value v)).sys.heap w.sys.heap.length = v := by
        show content (w.sys.heap ++ [v]) w.sys.heap.length = v
        simp [content]
      have hst : started i (w.out ++ [.posted ty v]) = started i w.out := by rw [started_append]; simp [started, isAtt]
      refine ⟨fun _ => ⟨ty0, merge u v, rfl, fun k x hx => ?_⟩, fun hm => ?_, fun a ha hs => absurd hs (hn a ha), fun hs => ?_⟩
      · have hx : fld k (content (w.act (.value v)).sys.heap w.sys.heap.length) = some x := hx
        rw [hcell] at hx
        rw [Mon.fld_merge, hx]; rfl
      · exact hst.trans (h1.mp hm)
      · obtain ⟨ty', v', a1, a2, a3, a4⟩ := h1.sub hs
        have a1 : w.current = some (ty', v') := a1
        rw [hcur] at a1
        cases a1
        refine ⟨ty0, merge u v, rfl, hst.trans a2, ?_, fun m hm => ?_⟩
        · have hs : i ∈ w.subscribers := hs
          show calls i (w.act (.value v)) ++ (if i ∈ w.subscribers then [content (w.act (.value v)).sys.heap w.sys.heap.length] else [])
            = due i false (w.out ++ [.posted ty v])
          have a3 : calls i (w.act (.value v)) ++ (if i ∈ w.fan then _ else []) = due i false w.out := a3
          rw [hf] at a3
          simp only [List.not_mem_nil, if_false, List.append_nil] at a3
          have a2 : started i w.out = true := a2
          rw [if_pos hs, hcell, due_append, a3, a2]
          simp [due]
        · obtain ⟨b1, b2⟩ := a4 m hm
          refine ⟨b1, fun k hk => ?_⟩
          cases hv : fld k v with
          | none =>
            left
            rw [Mon.fld_merge, hv]
            rcases b2 k hk with b2 | ⟨b2, _⟩
            · exact b2
            · have b2 : i ∈ w.fan := b2
              rw [hf] at b2; cases b2
          | some x =>
            right
            refine ⟨hs, ?_⟩
            show fld k (content (w.act (.value v)).sys.heap w.sys.heap.length) ≠ none
            rw [hcell, hv]; simp

theorem good_fan {i : Nat} {w : World} (h : Good i w) (hb : Base w) : Good i (fan w) := by
  unfold fan
  split
  · exact h
  · rename_i j rest hfan
    obtain ⟨ty, v, hcur, hfv⟩ := h.fanv (by rw [hfan]; simp)
    obtain ⟨hjs, hjm, hja, hjt⟩ := fan_sub hb (i := j) (by rw [hfan]; simp)
    have hfc := hb.fanCell (by rw [hfan]; simp)
    -- the Value which is being passed on does not change
    have hcell : content (Mon.step w.sys (.post j w.fanCell false false)).heap w.fanCell = content w.sys.heap w.fanCell := by
      rw [Mon.post_heap]
      split
      · rename_i b hbt
        by_cases hbc : b = w.fanCell
        · subst hbc; rw [Mon.content_modify_eq _ _ _ hfc, Mon.merge_self]
        · exact Mon.content_modify_ne _ _ _ _ hbc
      · rfl
    have hlen : (w.act (.post j w.fanCell false false)).sys.mons.length = w.sys.mons.length := by simp [World.act, Mon.step_len]
    have noAtt : ∀ a ∈ w.attaching, a.sub = i → False := fun a ha hs => by
      have := (h.att a ha hs).1
      rw [hfan] at this; cases this
    refine ⟨fun _ => ⟨ty, v, hcur, fun k x hx => hfv k x (hcell ▸ hx)⟩, fun hm => h.mp ?_, fun a ha hs => (noAtt a ha hs).elim, fun hs => ?_⟩
    · rcases hm with hm | hm
      · exact .inl hm
      · refine .inr ?_
        have hm : (w.act (.post j w.fanCell false false)).sys.mons.length ≤ i := hm
        rw [hlen] at hm; exact hm
    · have hs : i ∈ w.subscribers := hs
      obtain ⟨ty', v', a1, a2, a3, a4⟩ := h.sub hs
      rw [hcur] at a1
      cases a1
      have hi_live : i < w.sys.mons.length := by
        rcases Nat.lt_or_ge i w.sys.mons.length with hl | hl
        · exact hl
        · have := (hb.fresh i hl).1
          have := List.count_pos_iff.2 hs
          unfold tot at *; omega
      obtain ⟨m, hm⟩ : ∃ m, w.sys.mons[i]? = some m := ⟨_, List.getElem?_eq_getElem hi_live⟩
      obtain ⟨b1, b2⟩ := a4 m hm
      have hm0 := hm
      rw [hb.sys] at hm
      have hfin : m.finished = false := by
        cases hf : m.finished
        · rfl
        · exact absurd ((Mon.run_fin i _ _ hm).asked hf) (hb.nofin i)
      refine ⟨ty, v, hcur, a2, ?_, fun m' hm' => ?_⟩
      · -- calls
        show calls i (w.act (.post j w.fanCell false false)) ++ (if i ∈ rest then [content (Mon.step w.sys (.post j w.fanCell false false)).heap w.fanCell] else [])
          = due i false w.out
        rw [hcell, hb.calls_act, ← a3, hfan]
        by_cases hij : j = i
        · subst hij
          have hnr : j ∉ rest := fun hr => by
            have h1 := hb.fanle j
            have h2 := hb.cnt j
            rw [hfan, List.count_cons_self] at h1
            have := List.count_pos_iff.2 hr
            unfold tot at h2; omega
          simp [call, hnr]
        · simp [call, hij, Ne.symm hij]
      · have hs1 := hb.sys_act (.post j w.fanCell false false)
        have hm1 : (w.act (.post j w.fanCell false false)).sys.mons[i]? = some m' := hm'
        rw [hs1] at hm1
        by_cases hij : j = i
        · subst hij
          obtain ⟨m2, c1, hact⟩ := Mon.step_acts hm (.post j w.fanCell false false)
          have hm2 := hm1
          simp only [World.act, Mon.run_snoc] at hm2
          rw [c1] at hm2
          have hmm := Option.some.inj hm2
          subst hmm
          have hst : m2.state ≠ .creating ∧ m2.mask = m.mask := by
            cases hact with
            | same => exact ⟨b1, rfl⟩
            | push => exact ⟨by rw [(Mon.maybeReply_fields _).1]; exact b1, (Mon.maybeReply_fields _).2.2.2.2.2.2.2.1⟩
            | poke => exact ⟨by rw [(Mon.maybeReply_fields _).1]; exact b1, (Mon.maybeReply_fields _).2.2.2.2.2.2.2.1⟩
          refine ⟨hst.1, fun k hk => .inl ?_⟩
          rw [hst.2] at hk
          obtain ⟨m3, d1, d2, d3, d4, d5⟩ := Mon.view_post (c := w.fanCell) hm b1 hfin hk
          simp only [World.act] at hm1
          rw [hm1] at d1
          cases d1
          show view (w.act (.post j w.fanCell false false)).sys.heap m2 k = fld k v
          rw [hs1]
          simp only [World.act]
          rw [d5, ← hb.sys]
          cases hp : fld k (content w.sys.heap w.fanCell) with
          | some x => rw [hfv k x hp]; rfl
          | none =>
            rcases b2 k hk with b2 | ⟨_, b2⟩
            · rw [← b2]; rfl
            · exact absurd hp b2
        · have hne : ∀ c mb f, Mon.Ev.post j w.fanCell false false ≠ .post i c mb f := fun c mb f he => by cases he; exact hij rfl
          obtain ⟨m2, c1, hact⟩ := Mon.step_acts hm (.post j w.fanCell false false)
          have hm2 := hm1
          simp only [World.act, Mon.run_snoc] at hm2
          rw [c1] at hm2
          have hmm := Option.some.inj hm2
          subst hmm
          have hst : m2 = m := by
            cases hact with
            | same => rfl
            | push => exact absurd rfl hij
            | poke => exact absurd rfl hij
          subst hst
          refine ⟨b1, fun k hk => ?_⟩
          obtain ⟨m3, d1, d2, d3, d4, d5⟩ := Mon.view_step hm hne (by simp) hk
          simp only [World.act] at hm1
          rw [hm1] at d1
          cases d1
          have hview : view (w.act (.post j w.fanCell false false)).sys.heap m2 k = view (Mon.run Spec.Mon.start (w.trace ++ [.post j w.fanCell false false])).heap m2 k := by
            rw [hs1]; rfl
          show view (w.act (.post j w.fanCell false false)).sys.heap m2 k = fld k v ∨ (i ∈ rest ∧ fld k (content (Mon.step w.sys (.post j w.fanCell false false)).heap w.fanCell) ≠ none)
          rw [hview, hcell]
          rcases d5 with d5 | ⟨j', c', mb, f, he, d6, d7⟩
          · rw [d5, ← hb.sys]
            rcases b2 k hk with b2 | ⟨b2, b3⟩
            · exact .inl b2
            · refine .inr ⟨?_, b3⟩
              rw [hfan] at b2
              rcases List.mem_cons.1 b2 with b2 | b2
              · exact absurd b2.symm hij
              · exact b2
          · cases he
            left
            rw [← hb.sys] at d6 d7
            rw [d7]
            cases hp : fld k (content w.sys.heap w.fanCell) with
            | none => exact absurd hp d6
            | some x => exact (hfv k x hp).symm

theorem good_step {i : Nat} {w : World} (h : Good i w) (hb : Base w) (e : Ev) (hr : attaching w i = true → changes e = false) : Good i (step w e) := by
  have hn : changes e = true → attaching w i = false := fun hc => by
    cases ha : attaching w i
    · rfl
    · rw [hr ha] at hc; cases hc
  cases e with
  | peer e =>
    simp only [step]
    split
    · rename_i hp
      refine h.act hb e (fun c mb f he => by subst he; simp [peerOk] at hp) (fun he => by subst he; simp [peerOk] at hp) (.inl ?_)
      cases e <;> first | rfl | simp [peerOk] at hp
    · exact h
  | connect j =>
    by_cases hij : j = i
    · subst hij; exact good_connect h hb
    · exact good_connect_other h hb hij
  | fan => exact good_fan h hb
  | opClosed j => exact h.congr [] rfl (by simp [step]) rfl rfl rfl rfl rfl rfl rfl rfl
  | attach =>
    simp only [step]; split
    · exact h
    · refine h.congr (if w.channels.isEmpty then [.firstConnect] else []) ?_ rfl rfl rfl rfl rfl rfl rfl rfl rfl
      split <;> rfl
  | chanClosed c =>
    simp only [step]; split
    · exact h
    · unfold chanClosed; split
      · refine h.congr (if (w.channels.erase c).isEmpty then [.lastDisconnect] else []) ?_ rfl rfl rfl rfl rfl rfl rfl rfl rfl
        split <;> rfl
      · exact h
  | op =>
    simp only [step]; split
    · exact h
    · unfold op; split
      · exact h.congr [] rfl (by simp) rfl rfl rfl rfl rfl rfl rfl rfl
      · rename_i ty _ _; exact h.congr [.connectOp w.nops ty] rfl rfl rfl rfl rfl rfl rfl rfl rfl rfl
  | subscribe p n q mask =>
    simp only [step]; split
    · exact h
    · rename_i hl; exact good_subscribe h hb (not_locked hl) p n q mask
  | subClosed j =>
    simp only [step]; split
    · exact h
    · have h1 := h.act hb (.close j) (by simp) (by simp) (.inl rfl)
      refine ⟨h1.fanv, fun hm => h1.mp ?_, h1.att, fun hs => h1.sub (List.mem_of_mem_erase hs)⟩
      rcases hm with hm | hm
      · exact .inl (List.mem_of_mem_erase hm)
      · exact .inr hm
  | insert j => simp only [step]; split; exact h; exact good_insert h
  | «open» ty v =>
    simp only [step]; split
    · exact h
    · rename_i hl; exact good_open h hb (not_locked hl) (hn rfl) ty v
  | post ty v =>
    simp only [step]; split
    · exact h
    · rename_i hl; exact good_post h hb (not_locked hl) (hn rfl) ty v
  | close =>
    simp only [step]; split
    · exact h
    · rename_i hl
      have hna := not_attaching (hn rfl)
      have hall : (Out.closed :: w.channels.map .closeChan).all neutral = true := by
        rw [List.all_eq_true]; intro x hx
        rcases List.mem_cons.1 hx with rfl | hx
        · rfl
        · obtain ⟨j, _, rfl⟩ := List.mem_map.1 hx; rfl
      refine ⟨fun hf => absurd (not_locked hl) hf, fun hm => ?_, fun a ha hs => absurd hs (hna a ha), fun hs => by simp [close] at hs⟩
      show started i (w.out ++ _) = false
      rw [started_append, (due_neutral (b := false) hall).2, Bool.or_false]
      exact h.mp hm
  | fetch => simp only [step]; split; exact h; exact h.congr [_] rfl rfl rfl rfl rfl rfl rfl rfl rfl rfl

theorem run_good (i : Nat) : ∀ es, NoRace i es → Good i (run start es) := by
  apply snoc_ind
  · intro _
    refine ⟨fun h => absurd rfl h, fun _ => rfl, ?_, ?_⟩
    · intro a ha; cases ha
    · intro h; cases h
  · intro es e ih hr
    rw [run_snoc]
    refine good_step (ih fun pre x post he => hr pre x (post ++ [e]) (by rw [he]; simp)) (run_base es) e (hr es e [] rfl)

end Pvxs.SPV
