import Verif.Spec.GroupPut
import Verif.Props.GroupConf
/-
C68: put to a group.
-/
namespace Pvxs.Props.Grp
open Pvxs.Group Spec.Group

/-! ### one field -/

/-- `v` is wanted for this field, number i -/
def Wants (p : Put) (f : PField) (i v : Nat) : Prop :=
  ∃ c o, f.chan = some c ∧ f.putOrder = some o ∧ f.type.writes = true ∧ p.sent i = some v

/-- an event of the database which is about field i -/
def About (i : Nat) : Ev → Prop
  | .lock _ => False
  | .unlock => False
  | .write j _ => j = i
  | .process j => j = i
  | .reprocess j => j = i

theorem post_about (p : Put) (i : Nat) (c : Chan) :
    (∀ e ∈ (postProcess p i c).1, About i e) ∧ (∀ j v, Ev.write j v ∉ (postProcess p i c).1) := by
  unfold postProcess
  split
  · split
    · exact ⟨fun e he => by rw [List.mem_singleton.mp he]; exact rfl, fun j v h => by simp at h⟩
    · split
      · exact ⟨fun e he => by rw [List.mem_singleton.mp he]; exact rfl, fun j v h => by simp at h⟩
      · exact ⟨fun e he => by rw [List.mem_singleton.mp he]; exact rfl, fun j v h => by simp at h⟩
  · exact ⟨fun e he => by simp at he, fun j v h => by simp at h⟩

theorem written_nil {es : List Ev} (h : ∀ j v, Ev.write j v ∉ es) : written es = [] := by
  unfold written
  rw [List.filterMap_eq_nil_iff]
  intro e he
  cases e with
  | write j v => exact absurd he (h j v)
  | _ => rfl

theorem written_append (a b : List Ev) : written (a ++ b) = written a ++ written b := List.filterMap_append

theorem field_spec (all : List PField) (p : Put) (i k : Nat) (f : PField) :
    (∀ e ∈ (putGroupField all p i k f).1, About i e) ∧
    (∀ j v, Ev.write j v ∈ (putGroupField all p i k f).1 → j = i ∧ Wants p f i v ∧ canWrite all p k = true) ∧
    (written (putGroupField all p i k f).1 = [] ∨ written (putGroupField all p i k f).1 = [i]) ∧
    ((putGroupField all p i k f).2 ≠ none → ∀ v, Wants p f i v → Ev.write i v ∈ (putGroupField all p i k f).1) := by
  unfold putGroupField
  cases hc : f.chan with
  | none =>
    refine ⟨fun e he => by simp at he, fun j v h => by simp at h, Or.inl rfl, fun _ v hv => ?_⟩
    obtain ⟨c, _, h, _⟩ := hv
    rw [hc] at h
    cases h
  | some c =>
    have hp := post_about p i c
    have hw := written_nil hp.2
    have noWant : (p.sent i = none ∨ f.putOrder = none) → ∀ v, ¬ Wants p f i v := by
      rintro h v ⟨_, o, _, h1, _, h2⟩
      rcases h with h | h
      · rw [h] at h2; cases h2
      · rw [h] at h1; cases h1
    have idle : (p.sent i = none ∨ f.putOrder = none) →
        let r : List Ev × Option Bool := if f.type = .proc then ((postProcess p i c).1, if (postProcess p i c).2 then some true else none) else ([], some false)
        (∀ e ∈ r.1, About i e) ∧ (∀ j v, Ev.write j v ∈ r.1 → j = i ∧ Wants p f i v ∧ canWrite all p k = true) ∧
        (written r.1 = [] ∨ written r.1 = [i]) ∧ (r.2 ≠ none → ∀ v, Wants p f i v → Ev.write i v ∈ r.1) := by
      intro h
      split
      · exact ⟨hp.1, fun j v hv => absurd hv (hp.2 j v), Or.inl hw, fun _ v hv => absurd hv (noWant h v)⟩
      · exact ⟨fun e he => by simp at he, fun j v hv => by simp at hv, Or.inl rfl, fun _ v hv => absurd hv (noWant h v)⟩
    cases hs : p.sent i with
    | none => exact idle (Or.inl hs)
    | some v =>
      cases ho : f.putOrder with
      | none => exact idle (Or.inr ho)
      | some o =>
        simp only
        by_cases hcw : canWrite all p k = false
        · rw [if_pos hcw]
          exact ⟨fun e he => by simp at he, fun j v h => by simp at h, Or.inl rfl, fun h => absurd rfl h⟩
        · rw [if_neg hcw]
          have hcw' : canWrite all p k = true := by simpa using hcw
          by_cases hf : (f.type.writes && c.putFails) = true
          · rw [if_pos hf]
            exact ⟨fun e he => by simp at he, fun j v h => by simp at h, Or.inl rfl, fun h => absurd rfl h⟩
          · rw [if_neg hf]
            by_cases ht : f.type.writes = true
            · rw [if_pos ht]
              refine ⟨?_, ?_, ?_, ?_⟩
              · intro e he
                rcases List.mem_append.mp he with he | he
                · rw [List.mem_singleton.mp he]; exact rfl
                · exact hp.1 e he
              · intro j w h
                rcases List.mem_append.mp h with h | h
                · rw [List.mem_singleton] at h
                  injection h with h1 h2
                  subst h1 h2
                  exact ⟨rfl, ⟨c, o, hc, ho, ht, hs⟩, hcw'⟩
                · exact absurd h (hp.2 j w)
              · right
                rw [written_append, hw]
                rfl
              · rintro _ w ⟨_, _, _, _, _, h⟩
                rw [hs] at h
                injection h with h
                subst h
                simp
            · rw [if_neg ht]
              refine ⟨by simpa using hp.1, fun j w h => absurd (by simpa using h) (hp.2 j w), Or.inl (by simpa using hw), ?_⟩
              rintro _ w ⟨_, _, _, _, h, _⟩
              exact absurd h ht

/-! ### all fields -/

/-- what is common to both loops: only what is wanted is written, in order, and all of it unless there is an exception.
    `perm j`: the SecurityClient used for field j -/
def LoopSpec (all : List PField) (p : Put) (i : Nat) (perm : Nat → Nat) (fs : List PField) (r : List Ev × Option Bool) : Prop :=
  (∀ j v, Ev.write j v ∈ r.1 → ∃ n f, j = i + n ∧ fs[n]? = some f ∧ Wants p f j v ∧ canWrite all p (perm n) = true) ∧
  ((written r.1).Pairwise (· < ·) ∧ ∀ j ∈ written r.1, i ≤ j) ∧
  (r.2 ≠ none → ∀ n f v, fs[n]? = some f → Wants p f (i + n) v → Ev.write (i + n) v ∈ r.1)

theorem written_mem {es : List Ev} {j : Nat} : j ∈ written es ↔ ∃ v, Ev.write j v ∈ es := by
  unfold written
  rw [List.mem_filterMap]
  constructor
  · rintro ⟨e, he, h⟩
    cases e with
    | write i v =>
      injection h with h
      subst h
      exact ⟨v, he⟩
    | _ => cases h
  · rintro ⟨v, h⟩
    exact ⟨_, h, rfl⟩

/-- a field and then the rest -/
theorem loop_cons {all : List PField} {p : Put} {i k : Nat} {perm perm' : Nat → Nat} {f : PField} {fs : List PField}
    {r : List Ev × Option Bool} {es : List Ev} (hk : perm 0 = k) (hperm : ∀ n, perm (n + 1) = perm' n)
    (hes : ∀ j v, Ev.write j v ∈ es ↔ Ev.write j v ∈ (putGroupField all p i k f).1)
    (hwr : written es = written (putGroupField all p i k f).1)
    (hsome : (putGroupField all p i k f).2 ≠ none) (h : LoopSpec all p (i + 1) perm' fs r) {es' : List Ev}
    (hes' : ∀ j v, Ev.write j v ∈ es' ↔ Ev.write j v ∈ r.1) (hwr' : written es' = written r.1) :
    LoopSpec all p i perm (f :: fs) (es ++ es', r.2) := by
  obtain ⟨_, h2, h3, h4⟩ := field_spec all p i k f
  obtain ⟨g1, ⟨g2, g3⟩, g4⟩ := h
  refine ⟨?_, ?_, ?_⟩
  · intro j v hj
    rcases List.mem_append.mp hj with hj | hj
    · obtain ⟨rfl, hw, hc⟩ := h2 j v ((hes j v).mp hj)
      exact ⟨0, f, rfl, rfl, hw, by rw [hk]; exact hc⟩
    · obtain ⟨n, f', rfl, hf, hw, hc⟩ := g1 j v ((hes' j v).mp hj)
      exact ⟨n + 1, f', by omega, by simpa using hf, hw, by rw [hperm]; exact hc⟩
  · rw [written_append, hwr, hwr']
    constructor
    · rw [List.pairwise_append]
      refine ⟨?_, g2, ?_⟩
      · rcases h3 with h3 | h3 <;> rw [h3] <;> simp
      · intro a ha b hb
        have := g3 b hb
        rcases h3 with h3 | h3 <;> rw [h3] at ha
        · simp at ha
        · rw [List.mem_singleton.mp ha]; omega
    · intro j hj
      rcases List.mem_append.mp hj with hj | hj
      · rcases h3 with h3 | h3 <;> rw [h3] at hj
        · simp at hj
        · rw [List.mem_singleton.mp hj]; exact Nat.le_refl _
      · have := g3 j hj; omega
  · intro hr n f' v hn hw
    cases n with
    | zero =>
      simp only [List.getElem?_cons_zero, Option.some.injEq] at hn
      subst hn
      exact List.mem_append_left _ ((hes _ _).mpr (h4 hsome v hw))
    | succ n =>
      refine List.mem_append_right _ ((hes' _ _).mpr ?_)
      have := g4 hr n f' v (by simpa using hn) (by rw [show i + 1 + n = i + (n + 1) by omega]; exact hw)
      rwa [show i + 1 + n = i + (n + 1) by omega] at this

/-- a field which throws -/
theorem loop_throw {all : List PField} {p : Put} {i k : Nat} {perm : Nat → Nat} {f : PField} {fs : List PField} {es : List Ev}
    (hk : perm 0 = k) (hes : ∀ j v, Ev.write j v ∈ es ↔ Ev.write j v ∈ (putGroupField all p i k f).1)
    (hwr : written es = written (putGroupField all p i k f).1) : LoopSpec all p i perm (f :: fs) (es, none) := by
  obtain ⟨_, h2, h3, _⟩ := field_spec all p i k f
  refine ⟨?_, ?_, fun h => absurd rfl h⟩
  · intro j v hj
    obtain ⟨rfl, hw, hc⟩ := h2 j v ((hes j v).mp hj)
    exact ⟨0, f, rfl, rfl, hw, by rw [hk]; exact hc⟩
  · rw [hwr]
    rcases h3 with h3 | h3 <;> rw [h3] <;> simp

theorem atomic_spec (all : List PField) (p : Put) : ∀ (fs : List PField) (i : Nat) (did : Bool),
    LoopSpec all p i (fun n => i + n) fs (putAtomic all p i did fs) ∧ ∀ e ∈ (putAtomic all p i did fs).1, ∃ j, About j e := by
  intro fs
  induction fs with
  | nil =>
    intro i did
    refine ⟨⟨fun j v h => by simp [putAtomic] at h, ?_, fun _ n f v h => by simp at h⟩, fun e he => by simp [putAtomic] at he⟩
    simp [putAtomic, written]
  | cons f fs ih =>
    intro i did
    have hf := field_spec all p i i f
    rw [putAtomic]
    rcases hr : putGroupField all p i i f with ⟨es, _ | d⟩
    · have e1 : (putGroupField all p i i f).1 = es := by rw [hr]
      refine ⟨loop_throw (k := i) rfl (fun j v => by rw [e1]) (by rw [e1]), fun e he => ⟨i, hf.1 e (by rw [e1]; exact he)⟩⟩
    · have e1 : (putGroupField all p i i f).1 = es := by rw [hr]
      obtain ⟨h1, h2⟩ := ih (i + 1) (did || d)
      refine ⟨loop_cons (k := i) (perm' := fun n => i + 1 + n) rfl (fun n => by omega) (fun j v => by rw [e1]) (by rw [e1]) (by rw [hr]; simp) h1
        (fun j v => Iff.rfl) rfl, ?_⟩
      intro e he
      rcases List.mem_append.mp he with he | he
      · exact ⟨i, hf.1 e (by rw [e1]; exact he)⟩
      · exact h2 e he

/-- how many of the first n fields are mapped to records -/
def mappedBefore (fs : List PField) (n : Nat) : Nat := ((fs.take n).filter fun f => f.chan.isSome).length

theorem lock_mem (r : Nat) (es : List Ev) (j v : Nat) : Ev.write j v ∈ Ev.lock [r] :: es ++ [Ev.unlock] ↔ Ev.write j v ∈ es := by
  simp

theorem lock_written (r : Nat) (es : List Ev) : written (Ev.lock [r] :: es ++ [Ev.unlock]) = written es := by
  rw [written_append]
  simp [written]

theorem each_spec (all : List PField) (p : Put) : ∀ (fs : List PField) (i k : Nat) (did : Bool),
    LoopSpec all p i (fun n => k + mappedBefore fs n) fs (putEach all p i k did fs) := by
  intro fs
  induction fs with
  | nil =>
    intro i k did
    refine ⟨fun j v h => by simp [putEach] at h, ?_, fun _ n f v h => by simp at h⟩
    simp [putEach, written]
  | cons f fs ih =>
    intro i k did
    rw [putEach]
    cases hc : f.chan with
    | none =>
      simp only
      obtain ⟨h1, ⟨h2, h3⟩, h4⟩ := ih (i + 1) k did
      refine ⟨?_, ⟨h2, fun j hj => by have := h3 j hj; omega⟩, ?_⟩
      · intro j v hj
        obtain ⟨n, f', rfl, hf, hw, hcw⟩ := h1 j v hj
        refine ⟨n + 1, f', by omega, by simpa using hf, hw, ?_⟩
        simpa [mappedBefore, hc] using hcw
      · intro hr n f' v hn hw
        cases n with
        | zero =>
          simp only [List.getElem?_cons_zero, Option.some.injEq] at hn
          subst hn
          obtain ⟨c, _, h, _⟩ := hw
          rw [hc] at h
          cases h
        | succ n =>
          have := h4 hr n f' v (by simpa using hn) (by rw [show i + 1 + n = i + (n + 1) by omega]; exact hw)
          rwa [show i + 1 + n = i + (n + 1) by omega] at this
    | some c =>
      simp only
      rcases hr : putGroupField all p i k f with ⟨es, _ | d⟩
      · have e1 : (putGroupField all p i k f).1 = es := by rw [hr]
        exact loop_throw (k := k) (by simp [mappedBefore]) (fun j v => by rw [e1, lock_mem]) (by rw [e1, lock_written])
      · have e1 : (putGroupField all p i k f).1 = es := by rw [hr]
        simp only
        have := loop_cons (all := all) (p := p) (i := i) (k := k) (f := f) (fs := fs) (r := putEach all p (i + 1) (k + 1) (did || d) fs)
          (es := Ev.lock [c.record] :: es ++ [Ev.unlock]) (es' := (putEach all p (i + 1) (k + 1) (did || d) fs).1)
          (perm := fun n => k + mappedBefore (f :: fs) n) (perm' := fun n => k + 1 + mappedBefore fs n)
          (by simp [mappedBefore]) (fun n => by simp [mappedBefore, hc]; omega)
          (fun j v => by rw [e1, lock_mem]) (by rw [e1, lock_written]) (by rw [hr]; simp) (ih (i + 1) (k + 1) (did || d)) (fun j v => Iff.rfl) rfl
        simpa using this

/-! ### C68 -/

theorem wanted_iff (fs : List PField) (p : Put) (i v : Nat) : Wanted fs p i v ↔ ∃ f, fs[i]? = some f ∧ Wants p f i v := by
  have key : ∀ t : MapType, t.writes = true ↔ (t ≠ .metadata ∧ t ≠ .proc ∧ t ≠ .struct) := by
    intro t; cases t <;> simp [MapType.writes]
  constructor
  · rintro ⟨f, c, o, h1, h2, h3, h4, h5, h6, h7⟩
    exact ⟨f, h1, c, o, h2, h3, (key _).mpr ⟨h4, h5, h6⟩, h7⟩
  · rintro ⟨f, h1, c, o, h2, h3, h4, h7⟩
    obtain ⟨a, b, d⟩ := (key _).mp h4
    exact ⟨f, c, o, h1, h2, h3, a, b, d, h7⟩

/-- the loop of a put -/
def body (fs : List PField) (p : Put) (atomic : Bool) : List Ev × Option Bool :=
  if atomic then putAtomic fs p 0 false fs else putEach fs p 0 0 false fs

/-- which SecurityClient is used -/
def client (fs : List PField) (atomic : Bool) (n : Nat) : Nat := if atomic then n else mappedBefore fs n

theorem body_spec (fs : List PField) (p : Put) (atomic : Bool) : LoopSpec fs p 0 (client fs atomic) fs (body fs p atomic) := by
  cases atomic with
  | true =>
    rw [show client fs true = fun n => 0 + n by funext n; simp [client]]
    exact (atomic_spec fs p fs 0 false).1
  | false =>
    rw [show client fs false = fun n => 0 + mappedBefore fs n by funext n; simp [client]]
    exact each_spec fs p fs 0 0 false

theorem put_cases (fs : List PField) (p : Put) (atomic : Bool) :
    (fs.any refuses = true ∧ putGroup fs p atomic = ([], false)) ∨
    (fs.any refuses = false ∧ (∀ j v, Ev.write j v ∈ (putGroup fs p atomic).1 ↔ Ev.write j v ∈ (body fs p atomic).1) ∧
      written (putGroup fs p atomic).1 = written (body fs p atomic).1 ∧
      (putGroup fs p atomic).1 = (if atomic then .lock (records fs) :: (body fs p atomic).1 ++ [.unlock] else (body fs p atomic).1) ∧
      ((putGroup fs p atomic).2 = true → (body fs p atomic).2 ≠ none) ∧
      ((putGroup fs p atomic).2 = match (body fs p atomic).2 with | none => false | some did => !(!did && p.anySent))) := by
  unfold putGroup
  by_cases h : fs.any refuses = true
  · exact Or.inl ⟨h, by rw [if_pos h]⟩
  · right
    refine ⟨by simpa using h, ?_⟩
    rw [if_neg h]
    cases atomic with
    | true =>
      simp only [if_true, body]
      rcases hr : putAtomic fs p 0 false fs with ⟨es, _ | d⟩
      · refine ⟨fun j v => by simp, ?_, rfl, fun h => by simp at h, rfl⟩
        simp only
        rw [written_append]; simp [written]
      · refine ⟨fun j v => by simp, ?_, rfl, fun h => by simp, rfl⟩
        simp only
        rw [written_append]; simp [written]
    | false =>
      simp only [Bool.false_eq_true, if_false, body]
      rcases hr : putEach fs p 0 0 false fs with ⟨es, _ | d⟩
      · exact ⟨fun j v => Iff.rfl, rfl, rfl, fun h => by simp at h, rfl⟩
      · exact ⟨fun j v => Iff.rfl, rfl, rfl, fun h => by simp, rfl⟩

/-- C68, what is proved of it.  Only what was sent is written, to the fields it was sent for.
    Missing: permissions when the put is not atomic, see `C68_wrong_client`; also `C68_half` and `C68_unasked`. -/
theorem C68_only_partial (fs : List PField) (p : Put) (atomic : Bool) (i v : Nat) (h : Ev.write i v ∈ (putGroup fs p atomic).1) :
    Wanted fs p i v := by
  rcases put_cases fs p atomic with ⟨_, e⟩ | ⟨_, e, _⟩
  · rw [e] at h; simp at h
  · obtain ⟨n, f, rfl, hf, hw, _⟩ := (body_spec fs p atomic).1 i v ((e i v).mp h)
    rw [Nat.zero_add] at hw ⊢
    exact (wanted_iff fs p n v).mpr ⟨f, hf, hw⟩

/-- success is reported only if everything that is wanted has been written -/
theorem C68_complete_partial (fs : List PField) (p : Put) (atomic : Bool) (h : (putGroup fs p atomic).2 = true) (i v : Nat)
    (hw : Wanted fs p i v) : Ev.write i v ∈ (putGroup fs p atomic).1 := by
  rcases put_cases fs p atomic with ⟨_, e⟩ | ⟨_, e, _, _, e2, _⟩
  · rw [e] at h; simp at h
  · obtain ⟨f, hf, hw⟩ := (wanted_iff fs p i v).mp hw
    have := (body_spec fs p atomic).2.2 (e2 h) i f v hf (by rwa [Nat.zero_add])
    rw [Nat.zero_add] at this
    exact (e i v).mpr this

/-- each field is written at most once, in the order of the fields -/
theorem C68_once_partial (fs : List PField) (p : Put) (atomic : Bool) : (written (putGroup fs p atomic).1).Pairwise (· < ·) := by
  rcases put_cases fs p atomic with ⟨_, e⟩ | ⟨_, _, e, _⟩
  · rw [e]; exact List.Pairwise.nil
  · rw [e]; exact (body_spec fs p atomic).2.1.1

/-- and so, for fields which are in put order (as C67 has them), the writes are in put order -/
theorem C68_order_partial (fs : List PField) (hs : fs.Pairwise fun a b => Before a.putOrder b.putOrder) (p : Put) (atomic : Bool)
    (a b c : List Ev) (i j v w : Nat) (h : (putGroup fs p atomic).1 = a ++ .write i v :: b ++ .write j w :: c) :
    ∃ f g x y, fs[i]? = some f ∧ fs[j]? = some g ∧ f.putOrder = some x ∧ g.putOrder = some y ∧ x ≤ y := by
  have h1 := C68_only_partial fs p atomic i v (by rw [h]; simp)
  have h2 := C68_only_partial fs p atomic j w (by rw [h]; simp)
  have h3 := C68_once_partial fs p atomic
  rw [h, written_append, written_append] at h3
  have hlt : i < j := by
    have := (List.pairwise_append.mp h3).2.2 i (by simp [written]) j (by simp [written])
    exact this
  obtain ⟨f, c1, x, hf, _, hx, _⟩ := h1
  obtain ⟨g, c2, y, hg, _, hy, _⟩ := h2
  refine ⟨f, g, x, y, hf, hg, hx, hy, ?_⟩
  obtain ⟨li, ei⟩ := List.getElem?_eq_some_iff.mp hf
  obtain ⟨lj, ej⟩ := List.getElem?_eq_some_iff.mp hg
  have := List.pairwise_iff_getElem.mp hs i j li lj hlt
  rw [ei, ej, hx, hy] at this
  exact this

/-- an atomic put, and any put to a group all fields of which are mapped to records, writes only what the client may write -/
theorem C68_permitted_partial (fs : List PField) (p : Put) (atomic : Bool) (ha : atomic = true ∨ AllMapped fs) (i v : Nat)
    (h : Ev.write i v ∈ (putGroup fs p atomic).1) : p.allowed i = true := by
  rcases put_cases fs p atomic with ⟨_, e⟩ | ⟨_, e, _⟩
  · rw [e] at h; simp at h
  · obtain ⟨n, f, rfl, hf, _, hc⟩ := (body_spec fs p atomic).1 i v ((e i v).mp h)
    have hcl : client fs atomic n = n := by
      unfold client
      rcases ha with rfl | ha
      · rfl
      · cases atomic with
        | true => rfl
        | false =>
          have hall : (fs.take n).filter (fun f => f.chan.isSome) = fs.take n :=
            List.filter_eq_self.mpr fun x hx => ha x (List.mem_of_mem_take hx)
          obtain ⟨hl, _⟩ := List.getElem?_eq_some_iff.mp hf
          simp only [Bool.false_eq_true, if_false, mappedBefore, hall, List.length_take]
          omega
    rw [hcl] at hc
    rw [Nat.zero_add]
    unfold canWrite at hc
    rw [hf] at hc
    simp only [Bool.and_eq_true] at hc
    exact hc.2

/-- an atomic put: all of it happens with the records of all the fields locked -/
theorem C68_atomic_partial (fs : List PField) (p : Put) (h : (putGroup fs p true).1 ≠ []) :
    ∃ es, (putGroup fs p true).1 = .lock (fs.filterMap fun f => f.chan.map (·.record)) :: es ++ [.unlock] ∧ (∀ rs, Ev.lock rs ∉ es) ∧ Ev.unlock ∉ es := by
  rcases put_cases fs p true with ⟨_, e⟩ | ⟨_, _, _, e, _⟩
  · rw [e] at h; exact absurd rfl h
  · refine ⟨(body fs p true).1, e, ?_, ?_⟩
    · intro rs hm
      obtain ⟨j, hj⟩ := (atomic_spec fs p fs 0 false).2 _ hm
      exact hj
    · intro hm
      obtain ⟨j, hj⟩ := (atomic_spec fs p fs 0 false).2 _ hm
      exact hj

theorem held_append (a b : List Ev) (h : ∀ e ∈ b, ∃ j, About j e) : held (a ++ b) = held a := by
  unfold held
  rw [List.foldl_append]
  generalize a.foldl _ [] = x
  induction b generalizing x with
  | nil => rfl
  | cons e b ih =>
    rw [List.foldl_cons]
    obtain ⟨j, hj⟩ := h e (by simp)
    cases e with
    | lock _ => exact absurd hj id
    | unlock => exact absurd hj id
    | _ => exact ih (fun e he => h e (List.mem_cons_of_mem _ he)) x

theorem held_lock (a : List Ev) (rs : List Nat) : held (a ++ [.lock rs]) = rs := by
  unfold held
  rw [List.foldl_append]
  rfl

/-- of a split of `x ++ e :: y`: where the element is -/
theorem split_at {α : Type} {x y a b : List α} {e w : α} (h : x ++ e :: y = a ++ w :: b) :
    (∃ c, a = x ++ e :: c ∧ y = c ++ w :: b) ∨ (e = w ∧ x = a) ∨ (∃ c, x = a ++ w :: c) := by
  rcases List.append_eq_append_iff.mp h with ⟨c, h1, h2⟩ | ⟨c, h1, h2⟩
  · cases c with
    | nil =>
      simp only [List.nil_append, List.cons.injEq] at h2
      exact Or.inr (Or.inl ⟨h2.1, by simpa using h1.symm⟩)
    | cons d c =>
      simp only [List.cons_append, List.cons.injEq] at h2
      exact Or.inl ⟨c, by rw [h1, h2.1], h2.2⟩
  · cases c with
    | nil =>
      simp only [List.nil_append, List.cons.injEq] at h2
      exact Or.inr (Or.inl ⟨h2.1.symm, by simpa using h1⟩)
    | cons d c =>
      simp only [List.cons_append, List.cons.injEq] at h2
      exact Or.inr (Or.inr ⟨c, by rw [h1, h2.1]⟩)

theorem each_held (all : List PField) (p : Put) : ∀ (fs : List PField) (i k : Nat) (did : Bool) (pre a b : List Ev) (j v : Nat),
    (putEach all p i k did fs).1 = a ++ .write j v :: b →
    ∃ n f c, j = i + n ∧ fs[n]? = some f ∧ f.chan = some c ∧ c.record ∈ held (pre ++ a) := by
  intro fs
  induction fs with
  | nil => intro i k did pre a b j v h; simp [putEach] at h
  | cons f fs ih =>
    intro i k did pre a b j v h
    rw [putEach] at h
    cases hc : f.chan with
    | none =>
      rw [hc] at h
      obtain ⟨n, f', c, rfl, h1, h2, h3⟩ := ih (i + 1) k did pre a b j v h
      exact ⟨n + 1, f', c, by omega, by simpa using h1, h2, h3⟩
    | some c =>
      rw [hc] at h
      simp only at h
      have hf := field_spec all p i k f
      have mid : ∀ es : List Ev, (putGroupField all p i k f).1 = es → ∀ tl a' b', Ev.lock [c.record] :: es ++ Ev.unlock :: tl = a' ++ .write j v :: b' →
          (∃ y, a' = Ev.lock [c.record] :: es ++ Ev.unlock :: y ∧ tl = y ++ .write j v :: b') ∨
          (j = i ∧ c.record ∈ held (pre ++ a')) := by
        intro es hes tl a' b' h
        rcases split_at h with ⟨y, h1, h2⟩ | ⟨h1, _⟩ | ⟨y, h1⟩
        · exact Or.inl ⟨y, h1, h2⟩
        · cases h1
        · right
          cases a' with
          | nil => simp at h1
          | cons e a' =>
            simp only [List.cons_append, List.cons.injEq] at h1
            obtain ⟨rfl, h1⟩ := h1
            rw [hes, h1] at hf
            refine ⟨(hf.2.1 j v (by simp)).1, ?_⟩
            rw [show pre ++ Ev.lock [c.record] :: a' = (pre ++ [Ev.lock [c.record]]) ++ a' by simp,
              held_append _ _ (fun e he => ⟨i, hf.1 e (by simp [he])⟩), held_lock]
            simp
      rcases hr : putGroupField all p i k f with ⟨es, _ | d⟩
      · rw [hr] at h
        rcases mid es (by rw [hr]) [] a b h with ⟨y, _, h2⟩ | ⟨rfl, h2⟩
        · simp at h2
        · exact ⟨0, f, c, rfl, rfl, hc, h2⟩
      · rw [hr] at h
        simp only at h
        rcases mid es (by rw [hr]) _ a b h with ⟨y, h1, h2⟩ | ⟨rfl, h2⟩
        · obtain ⟨n, f', c', rfl, g1, g2, g3⟩ := ih (i + 1) (k + 1) (did || d) (pre ++ (Ev.lock [c.record] :: es ++ [Ev.unlock])) y b j v h2
          refine ⟨n + 1, f', c', by omega, by simpa using g1, g2, ?_⟩
          rw [h1]
          simpa using g3
        · exact ⟨0, f, c, rfl, rfl, hc, h2⟩

/-- whatever is written is written while its record is locked -/
theorem C68_locked_partial (fs : List PField) (p : Put) (atomic : Bool) (a b : List Ev) (i v : Nat)
    (h : (putGroup fs p atomic).1 = a ++ .write i v :: b) :
    ∃ f c, fs[i]? = some f ∧ f.chan = some c ∧ c.record ∈ held a := by
  obtain ⟨f, c, _, hf, hc, _⟩ := C68_only_partial fs p atomic i v (by rw [h]; simp)
  cases atomic with
  | true =>
    refine ⟨f, c, hf, hc, ?_⟩
    obtain ⟨es, he, h1, h2⟩ := C68_atomic_partial fs p (by rw [h]; simp)
    rw [he] at h
    have hab : ∀ e ∈ es, ∃ j, About j e := by
      intro e hm
      cases e with
      | lock rs => exact absurd hm (h1 rs)
      | unlock => exact absurd hm h2
      | write j _ => exact ⟨j, rfl⟩
      | process j => exact ⟨j, rfl⟩
      | reprocess j => exact ⟨j, rfl⟩
    rcases split_at h with ⟨y, _, h4⟩ | ⟨h4, _⟩ | ⟨y, h4⟩
    · simp at h4
    · cases h4
    · cases a with
      | nil => simp at h4
      | cons e a =>
        simp only [List.cons_append, List.cons.injEq] at h4
        obtain ⟨rfl, h4⟩ := h4
        rw [show Ev.lock (fs.filterMap fun f => f.chan.map (·.record)) :: a = ([] ++ [Ev.lock (fs.filterMap fun f => f.chan.map (·.record))]) ++ a by simp,
          held_append _ _ (fun e he => hab e (by rw [h4]; simp [he])), held_lock]
        exact List.mem_filterMap.mpr ⟨f, List.mem_of_getElem? hf, by rw [hc]; rfl⟩
  | false =>
    rcases put_cases fs p false with ⟨_, e⟩ | ⟨_, _, _, e, _⟩
    · rw [e] at h; simp at h
    · rw [e] at h
      obtain ⟨n, f', c', rfl, g1, g2, g3⟩ := each_held fs p fs 0 0 false [] a b i v h
      rw [Nat.zero_add]
      exact ⟨f', c', g1, g2, g3⟩

/-- if the record of some field refuses puts then nothing is written, and an error is reported -/
theorem C68_refused_partial (fs : List PField) (p : Put) (atomic : Bool) (f : PField) (c : Chan) (hf : f ∈ fs) (hc : f.chan = some c)
    (h : c.attr = true ∨ c.disabled = true ∨ c.link = true) : putGroup fs p atomic = ([], false) := by
  unfold putGroup
  rw [if_pos]
  rw [List.any_eq_true]
  refine ⟨f, hf, ?_⟩
  unfold refuses
  rw [hc]
  rcases h with h | h | h <;> simp [h]

theorem idle_field {all : List PField} {p : Put} {i k : Nat} {f : PField} (h : ∀ c o, f.chan = some c → f.putOrder = some o → p.sent i = none)
    (hp : f.type ≠ .proc) : putGroupField all p i k f = ([], some false) := by
  unfold putGroupField
  cases hc : f.chan with
  | none => rfl
  | some c =>
    simp only
    cases ho : f.putOrder with
    | none => cases p.sent i <;> simp [hp]
    | some o => rw [h c o hc ho]; simp [hp]

theorem idle_loops (all : List PField) (p : Put) : ∀ (fs : List PField) (i k : Nat),
    (∀ n f c o, fs[n]? = some f → f.chan = some c → f.putOrder = some o → p.sent (i + n) = none) → (∀ f ∈ fs, f.type ≠ .proc) →
    (putAtomic all p i false fs).2 = some false ∧ (putEach all p i k false fs).2 = some false := by
  intro fs
  induction fs with
  | nil => intro i k _ _; exact ⟨rfl, rfl⟩
  | cons f fs ih =>
    intro i k h hp
    have hrest := fun k => ih (i + 1) k (fun n f' c o hn hc ho => by
      have := h (n + 1) f' c o (by simpa using hn) hc ho
      rwa [show i + (n + 1) = i + 1 + n by omega] at this) (fun f' hf' => hp f' (List.mem_cons_of_mem _ hf'))
    have hid := fun k => idle_field (all := all) (p := p) (i := i) (k := k) (f := f)
      (fun c o hc ho => by simpa using h 0 f c o rfl hc ho) (hp f (by simp))
    constructor
    · rw [putAtomic, hid i]
      exact (hrest k).1
    · rw [putEach]
      cases f.chan with
      | none => exact (hrest k).2
      | some c =>
        simp only [hid k]
        exact (hrest (k + 1)).2

/-- something was sent, but for no field which can be written: an error -/
theorem C68_nothing_partial (fs : List PField) (p : Put) (atomic : Bool) (ha : p.anySent = true) (hp : ∀ f ∈ fs, f.type ≠ .proc)
    (hw : ∀ i f c o, fs[i]? = some f → f.chan = some c → f.putOrder = some o → p.sent i = none) : (putGroup fs p atomic).2 = false := by
  have := idle_loops fs p fs 0 0 (fun n f c o h1 h2 h3 => by rw [Nat.zero_add]; exact hw n f c o h1 h2 h3) hp
  rcases put_cases fs p atomic with ⟨_, e⟩ | ⟨_, _, _, _, _, e⟩
  · rw [e]
  · rw [e]
    have hb : (body fs p atomic).2 = some false := by
      unfold body
      cases atomic
      · exact this.2
      · exact this.1
    rw [hb, ha]
    rfl

/-! ### where it does not hold -/

/-- A put which is not atomic (the client decides) to a group with a constant: the client may write the first record only, but is checked
    for it again when the second is written. -/
theorem C68_wrong_client :
    let fs : List PField := [{ type := .const }, { putOrder := some 1, chan := some { record := 1 } }, { putOrder := some 2, chan := some { record := 2 } }]
    let p : Put := { sent := fun i => if i = 2 then some 7 else none, anySent := true, allowed := fun i => i == 1 }
    p.allowed 2 = false ∧ putGroup fs p false = ([.lock [1], .unlock, .lock [2], .write 2 7, .unlock], true) := by decide

/-- and the other way round: the client may write everything, and is refused -/
theorem C68_wrong_refusal :
    let fs : List PField := [{ type := .const }, { putOrder := some 1, chan := some { record := 1 } }]
    let p : Put := { sent := fun i => if i = 1 then some 7 else none, anySent := true, allowed := fun _ => true }
    putGroup fs p false = ([.lock [1], .unlock], false) ∧ putGroup fs p true = ([.lock [1], .write 1 7, .unlock], true) := by decide

/-- an atomic put which is refused for the second field has written the first -/
theorem C68_half :
    let fs : List PField := [{ putOrder := some 1, chan := some { record := 1 } }, { putOrder := some 2, chan := some { record := 2 } }]
    let p : Put := { sent := fun i => some i, anySent := true, allowed := fun i => i == 0 }
    putGroup fs p true = ([.lock [1, 2], .write 0 0, .unlock], false) := by decide

/-- a client which may write nothing, and sends nothing for any field, makes a record process, and is told that this was a success -/
theorem C68_unasked :
    let fs : List PField := [{ type := .proc, chan := some { record := 1, isProc := true } }, { putOrder := some 1, chan := some { record := 2 } }]
    let p : Put := { sent := fun _ => none, anySent := true, allowed := fun _ => false }
    putGroup fs p true = ([.lock [1, 2], .process 0, .unlock], true) := by decide

/-! ### the hypotheses are met -/

/-- two values and a meta mapping, the last of which is not sent -/
def fields : List PField :=
  [{ type := .metadata, chan := some { record := 9 } }, { putOrder := some 1, chan := some { record := 1, passive := true } },
   { type := .plain, putOrder := some 2, chan := some { record := 2 } }]

def sends : Put := { sent := fun i => if i = 0 then none else some (10 + i), anySent := true, allowed := fun i => i != 0 }

example : fields.Pairwise fun a b => Before a.putOrder b.putOrder := by
  simp [fields, Before]
example : AllMapped fields := by simp [AllMapped, fields]
example : putGroup fields sends true = ([.lock [9, 1, 2], .write 1 11, .process 1, .write 2 12, .unlock], true) := by decide
example : putGroup fields sends false = ([.lock [9], .unlock, .lock [1], .write 1 11, .process 1, .unlock, .lock [2], .write 2 12, .unlock], true) := by decide
example : Wanted fields sends 2 12 := ⟨_, _, 2, rfl, rfl, rfl, by decide, by decide, by decide, by decide⟩
example : putGroup fields { sends with sent := fun i => if i = 0 then some 1 else none } true = ([.lock [9, 1, 2], .unlock], false) := by decide

end Pvxs.Props.Grp
