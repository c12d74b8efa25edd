import Verif.Props.ValueOps
import Verif.Props.Scalar
import Verif.Spec.Lookup
/-
C18: all lookup expressions.
-/
namespace Pvxs.Props.Lkp
open Pvxs Pvxs.Spec Wire

/-! ### tables -/

theorem table_of {t : List FieldDesc} (hu : Usable t) : (∀ i d, t[i]? = some d → NodeOK t i d) ∧
    (∀ i d, t[i]? = some d → d.code = .Struct → ∀ k o, d.mlookup.find? k = some o ↔ ∃ ps, ps ≠ [] ∧ k = joinDots ps ∧ Descends t i ps (i + o)) := by
  obtain ⟨m, rfl, hf⟩ := usable_flat hu
  exact ⟨fun i d hd => nodeOK_flat m hf i d hd, fun i d hd hs k o => mlookup_descends hf hd hs k o⟩

theorem parent_iff {t : List FieldDesc} (hu : Usable t) {i p : Nat} {d : FieldDesc} (hd : t[i]? = some d) :
    ParentOf t p i ↔ 0 < i ∧ p + d.parentIndex = i := by
  have hn := (table_of hu).1
  constructor
  · rintro ⟨e, name, off, he, hs, hm, rfl⟩
    obtain ⟨h0, c, hc, hp, _⟩ := (hn p e he).child hs name off hm
    rw [hd] at hc
    cases hc
    exact ⟨by omega, by omega⟩
  · rintro ⟨h0, h1⟩
    obtain ⟨h2, h3, e, he, hs, name, hm⟩ := (hn i d hd).parent h0
    exact ⟨e, name, d.parentIndex, by rw [show p = i - d.parentIndex by omega]; exact he, hs, hm, h1.symm⟩

/-- the choices of a Union by name -/
theorem union_names {t : List FieldDesc} (hu : Usable t) (hc : ClearNames t) {d : FieldDesc} (hd : d ∈ t) (hcode : d.code = .Union) :
    (∀ name off, d.mlookup.find? name = some off ↔ (name, off) ∈ d.miter) ∧
    (∀ n n' o, (n, o) ∈ d.miter → (n', o) ∈ d.miter → n = n') := by
  obtain ⟨m, rfl, hf⟩ := usable_flat hu
  have hnd := (hc d hd).2
  obtain ⟨c, d0, ds, n, h1, h2⟩ := node_of m d hd
  subst h2
  have h3 := flat_union h1 hcode
  subst h3
  refine ⟨fun name off => ?_, fun n n' o h h' => ?_⟩
  · show SMap.find? name (lookKids false [] 0 c.children) = some off ↔ (name, off) ∈ kidIter 0 c.children
    rw [lookKids_other, SMap.find?_some (SMap.sorted_insertAll SMap.sorted_nil _), SMap.mem_insertAll SMap.sorted_nil hnd (by simp [SMap.keys])]
    simp
  · obtain ⟨a, ha, rfl⟩ := mem_kidIter.mp h
    obtain ⟨b, hb, rfl⟩ := mem_kidIter.mp h'
    rw [kidAt_unique ha hb]

/-! ### names -/

theorem descends_le {t : List FieldDesc} {i j : Nat} {ps : List Str} (h : Descends t i ps j) : i ≤ j := by
  induction h with
  | here => exact Nat.le_refl _
  | member => omega

theorem descends_struct {t : List FieldDesc} {i j : Nat} {ps : List Str} (h : Descends t i ps j) (hne : ps ≠ []) :
    ∃ d, t[i]? = some d ∧ d.code = .Struct := by
  cases h with
  | here => exact absurd rfl hne
  | member i d name off more j hd hc hm h => exact ⟨d, hd, hc⟩

theorem descends_clear {t : List FieldDesc} (hc : ClearNames t) {i j : Nat} {ps : List Str} (h : Descends t i ps j) :
    (ps ≠ [] → joinDots ps ≠ []) ∧ ∀ c ∈ joinDots ps, endsName c = false := by
  induction h with
  | here => simp [joinDots]
  | member i d name off more j hd hcs hm h ih =>
    obtain ⟨h1, h2⟩ := (hc d (List.mem_of_getElem? hd)).1 _ hm
    have hname : ∀ c ∈ name, endsName c = false := fun c hcn => by
      obtain ⟨a, b, e, _⟩ := h2 c hcn
      simp [endsName, a, b, e]
    cases more with
    | nil => exact ⟨fun _ => by simpa [joinDots] using h1, by simpa [joinDots] using hname⟩
    | cons b l =>
      refine ⟨fun _ => by simp [joinDots], fun c hcm => ?_⟩
      simp only [joinDots, List.mem_append, List.mem_singleton] at hcm
      rcases hcm with (hcm | rfl) | hcm
      · exact hname c hcm
      · decide
      · exact ih.2 c hcm

theorem takeWhile_stop {p : Byte → Bool} : ∀ (k s : Str), (∀ c ∈ k, p c = true) → (∀ c r, s = c :: r → p c = false) →
    (k ++ s).takeWhile p = k ∧ (k ++ s).dropWhile p = s := by
  intro k
  induction k with
  | nil =>
    intro s _ h
    cases s with
    | nil => exact ⟨rfl, rfl⟩
    | cons c r =>
      have := h c r rfl
      simp [List.takeWhile, List.dropWhile, this]
  | cons a k ih =>
    intro s h1 h2
    obtain ⟨h3, h4⟩ := ih s (fun c hc => h1 c (List.mem_cons_of_mem _ hc)) h2
    have := h1 a (by simp)
    simp [List.takeWhile, List.dropWhile, this, h3, h4]

theorem dropWhile_stop (p : Byte → Bool) (s : Str) : ∀ c r, s.dropWhile p = c :: r → p c = false := by
  intro c r h
  exact dropWhile_head p s c r h

theorem split_while (p : Byte → Bool) (s : Str) : s.takeWhile p ++ s.dropWhile p = s := List.takeWhile_append_dropWhile

theorem nameEnds_iff (s : Str) : NameEnds s ↔ ∀ c r, s = c :: r → endsName c = true := by
  constructor
  · rintro (rfl | ⟨r', h | h | h⟩) c r he
    · cases he
    all_goals
      rw [h] at he
      injection he with he
      subst he
      decide
  · intro h
    cases s with
    | nil => exact Or.inl rfl
    | cons c r =>
      have := h c r rfl
      simp only [endsName, Bool.or_eq_true, beq_iff_eq] at this
      rcases this with (h | h) | h
      · exact Or.inr ⟨r, Or.inl (by rw [h])⟩
      · exact Or.inr ⟨r, Or.inr (Or.inl (by rw [h]))⟩
      · exact Or.inr ⟨r, Or.inr (Or.inr (by rw [h]))⟩

theorem choiceEnds_iff (s : Str) : ChoiceEnds s ↔ ∀ c r, s = c :: r → endsChoice c = true := by
  unfold ChoiceEnds
  rw [nameEnds_iff]
  constructor
  · rintro (h | ⟨r', rfl⟩) c r he
    · simp [endsChoice, h c r he]
    · injection he with he
      subst he
      decide
  · intro h
    cases s with
    | nil => exact Or.inl fun c r he => by cases he
    | cons c r =>
      have := h c r rfl
      simp only [endsChoice, Bool.or_eq_true, beq_iff_eq] at this
      rcases this with h | h
      · refine Or.inl fun c' r' he => ?_
        injection he with he
        rw [← he]; exact h
      · exact Or.inr ⟨r, by rw [h]⟩

/-! ### expressions -/

theorem leads_inv {dot : Bool} {h h' : Handle} {e : Str} (f : Leads dot h e h') :
    (e = [] ∧ h' = h) ∨
    (∃ p s, e = 0x3c :: s ∧ ParentOf h.desc p h.pos ∧ Leads dot ⟨h.desc, h.cells, p⟩ s h') ∨
    (dot = false ∧ ∃ ps j s, e = joinDots ps ++ s ∧ ps ≠ [] ∧ Descends h.desc h.pos ps j ∧ NameEnds s ∧ Leads false ⟨h.desc, h.cells, j⟩ s h') ∨
    (dot = true ∧ ∃ d s, e = 0x2e :: s ∧ h.desc[h.pos]? = some d ∧ d.code = .Struct ∧ s ≠ [] ∧ Leads false h s h') ∨
    (∃ d name off i t cs s, e = 0x2d :: 0x3e :: (name ++ s) ∧ At h d (.union i (.mk t cs)) ∧ d.miter[i]? = some (name, off) ∧ ChoiceEnds s ∧
      Leads true ⟨t, cs, 0⟩ s h') ∨
    (∃ d i t cs s, e = 0x2d :: 0x3e :: s ∧ At h d (.union i (.mk t cs)) ∧ (∀ p ∈ d.miter, ∀ r, s = p.1 ++ r → ¬ ChoiceEnds r) ∧
      Leads false ⟨t, cs, 0⟩ s h') ∨
    (∃ d t cs s, e = 0x2d :: 0x3e :: s ∧ At h d (.any (.mk t cs)) ∧ Leads false ⟨t, cs, 0⟩ s h') ∨
    (∃ d vs num n t cs s, e = 0x5b :: (num ++ 0x5d :: s) ∧ At h d (.vals vs) ∧ IndexText num n ∧ 0x5d ∉ num ∧ vs[n]? = some (.mk t cs) ∧
      Leads true ⟨t, cs, 0⟩ s h') := by
  cases f with
  | here => exact Or.inl ⟨rfl, rfl⟩
  | parent _ _ _ p s hp f => exact Or.inr (Or.inl ⟨p, s, rfl, hp, f⟩)
  | member _ _ ps j s hne hd hs f => exact Or.inr (Or.inr (Or.inl ⟨rfl, ps, j, s, rfl, hne, hd, hs, f⟩))
  | dotted _ _ d s hd hs hne f => exact Or.inr (Or.inr (Or.inr (Or.inl ⟨rfl, d, s, rfl, hd, hs, hne, f⟩)))
  | choice _ _ _ d name off i t cs s hx hi hs f => exact Or.inr (Or.inr (Or.inr (Or.inr (Or.inl ⟨d, name, off, i, t, cs, s, rfl, hx, hi, hs, f⟩))))
  | selected _ _ _ d i t cs s hx hn f => exact Or.inr (Or.inr (Or.inr (Or.inr (Or.inr (Or.inl ⟨d, i, t, cs, s, rfl, hx, hn, f⟩)))))
  | any _ _ _ d t cs s hx f => exact Or.inr (Or.inr (Or.inr (Or.inr (Or.inr (Or.inr (Or.inl ⟨d, t, cs, s, rfl, hx, f⟩))))))
  | element _ _ _ d vs num n t cs s hx hn hb hv f => exact Or.inr (Or.inr (Or.inr (Or.inr (Or.inr (Or.inr (Or.inr ⟨d, vs, num, n, t, cs, s, rfl, hx, hn, hb, hv, f⟩))))))

theorem at_unique {h : Handle} {d d' : FieldDesc} {x x' : Datum} (h1 : At h d x) (h2 : At h d' x') : d = d' ∧ x = x' := by
  obtain ⟨a, m, b⟩ := h1
  obtain ⟨a', m', b'⟩ := h2
  rw [a] at a'
  rw [b] at b'
  cases a'
  cases b'
  exact ⟨rfl, rfl⟩

theorem at_of {t : List FieldDesc} : ∀ {cs : List Cell} {i : Nat} {d : FieldDesc}, ProperCells t cs → t[i]? = some d →
    ∃ m x, cs[i]? = some (.mk m x) ∧ ProperDatum d x := by
  induction t with
  | nil => intro cs i d _ h; simp at h
  | cons e t ih =>
    intro cs i d hp h
    cases cs with
    | nil => simp [ProperCells] at hp
    | cons c cs =>
      obtain ⟨m, x⟩ := c
      simp only [ProperCells] at hp
      cases i with
      | zero =>
        simp only [List.getElem?_cons_zero, Option.some.injEq] at h
        subst h
        exact ⟨m, x, rfl, hp.1⟩
      | succ i => exact ih (i := i) hp.2 (by simpa using h)

theorem properVals_get : ∀ {vs : List Val} {n : Nat} {v : Val}, ProperVals vs → vs[n]? = some v → Proper v := by
  intro vs
  induction vs with
  | nil => intro n v _ h; simp at h
  | cons a vs ih =>
    intro n v hp h
    simp only [ProperVals] at hp
    cases n with
    | zero =>
      simp only [List.getElem?_cons_zero, Option.some.injEq] at h
      subst h
      exact hp.1
    | succ n => exact ih (n := n) hp.2 (by simpa using h)

theorem usable_ne {t : List FieldDesc} (h : Usable t) : 0 < t.length := by
  obtain ⟨m, rfl, _⟩ := usable_flat h
  exact List.length_pos_iff.mpr (flat_ne_nil m)

/-- what is known of the handles met on the way -/
structure Fine (dot : Bool) (h : Handle) : Prop where
  proper : Proper (.mk h.desc h.cells)
  inside : h.pos < h.desc.length
  top : dot = true → h.pos = 0

theorem fine_root {t : List FieldDesc} {cs : List Cell} (dot : Bool) (h : Proper (.mk t cs)) : Fine dot ⟨t, cs, 0⟩ := by
  refine ⟨h, ?_, fun _ => rfl⟩
  simp only [Proper] at h
  exact usable_ne h.1

theorem numeric_suffix {a s : Str} (h : Numeric (a ++ s)) : Numeric s := by
  intro b num c he hb hn
  exact h (a ++ b) num c (by rw [he, List.append_assoc]) hb hn

/-- what one round does -/
def RoundOK (dot : Bool) (s : Str) (h : Handle) : Step → Prop
  | .go dot' rest h1 => (∃ a, a ≠ [] ∧ s = a ++ rest) ∧ Fine dot' h1 ∧ ∀ h', Leads dot h s h' ↔ Leads dot' h1 rest h'
  | .null => ∀ h', ¬ Leads dot h s h'
  | .throws => (∀ h', ¬ Leads dot h s h') ∧ ¬ Numeric s
  | .ub => False

theorem not_special_head {t : List FieldDesc} (hc : ClearNames t) {i j : Nat} {ps : List Str} (h : Descends t i ps j) (hne : ps ≠ [])
    {c : Byte} {r s : Str} (he : c :: r = joinDots ps ++ s) : endsName c = false := by
  obtain ⟨h1, h2⟩ := descends_clear hc h
  cases hj : joinDots ps with
  | nil => exact absurd hj (h1 hne)
  | cons a k =>
    rw [hj] at he
    injection he with he
    rw [he]
    exact h2 a (by rw [hj]; simp)

theorem round_parent (dot : Bool) (r : Str) (h : Handle) (hf : Fine dot h) (d : FieldDesc) (hd : h.desc[h.pos]? = some d) :
    RoundOK dot (0x3c :: r) h (stepParent dot r h d) := by
  have hpr := hf.proper
  simp only [Proper] at hpr
  have hpi := fun p => parent_iff (p := p) hpr.1 hd
  have inv : ∀ h', Leads dot h (0x3c :: r) h' → ∃ p, ParentOf h.desc p h.pos ∧ Leads dot ⟨h.desc, h.cells, p⟩ r h' := by
    intro h' f
    rcases leads_inv f with ⟨e, _⟩ | ⟨p, s, e, hp, f⟩ | ⟨_, ps, j, s, e, hne, hds, _⟩ | ⟨_, d, s, e, _⟩ | ⟨d, name, off, i, t, cs, s, e, _⟩ |
      ⟨d, i, t, cs, s, e, _⟩ | ⟨d, t, cs, s, e, _⟩ | ⟨d, vs, num, n, t, cs, s, e, _⟩
    · cases e
    · injection e with _ e
      subst e
      exact ⟨p, hp, f⟩
    · exact absurd (not_special_head hpr.2.1 hds hne e) (by decide)
    all_goals (injection e with e _; exact absurd e (by decide))
  unfold stepParent
  by_cases h0 : h.pos = 0
  · rw [if_pos h0]
    intro h' f
    obtain ⟨p, hp, _⟩ := inv h' f
    have := ((hpi p).mp hp).1
    omega
  · rw [if_neg h0]
    obtain ⟨h1, h2, e, he, hs, name, hm⟩ := ((table_of hpr.1).1 h.pos d hd).parent (by omega)
    rw [if_neg (by omega)]
    refine ⟨⟨[0x3c], by simp, rfl⟩, ⟨hf.proper, ?_, fun hdot => absurd (hf.top hdot) h0⟩, fun h' => ⟨fun f => ?_, fun f => ?_⟩⟩
    · show h.pos - d.parentIndex < h.desc.length
      have := hf.inside
      omega
    · obtain ⟨p, hp, f⟩ := inv h' f
      have := ((hpi p).mp hp).2
      rw [show h.pos - d.parentIndex = p by omega]
      exact f
    · exact .parent dot h h' (h.pos - d.parentIndex) r ((hpi _).mpr ⟨by omega, by omega⟩) f

/-- names of members -/
theorem member_iff (h : Handle) (hf : Fine false h) (d : FieldDesc) (hd : h.desc[h.pos]? = some d) (hs : d.code = .Struct) (r : Str)
    (hr : r.head? ≠ some 0x3c ∨ h.pos = 0) (h' : Handle) :
    (r ≠ [] ∧ Leads false h r h') ↔ ∃ o, d.mlookup.find? (r.takeWhile fun c => !endsName c) = some o ∧
      Leads false { h with pos := h.pos + o } (r.dropWhile fun c => !endsName c) h' := by
  have hpr := hf.proper
  simp only [Proper] at hpr
  obtain ⟨mm, x, hx, hxd⟩ := at_of hpr.2.2 hd
  have hat : At h d x := ⟨hd, mm, hx⟩
  have hml := (table_of hpr.1).2 h.pos d hd hs
  constructor
  · rintro ⟨hne, f⟩
    rcases leads_inv f with ⟨e, _⟩ | ⟨p, s, e, hp, f⟩ | ⟨_, ps, j, s, e, hpne, hds, hends, f⟩ | ⟨e, _⟩ | ⟨d', name, off, i, t, cs, s, e, hx', _⟩ |
      ⟨d', i, t, cs, s, e, hx', _⟩ | ⟨d', t, cs, s, e, hx', _⟩ | ⟨d', vs, num, n, t, cs, s, e, hx', _⟩
    · exact absurd e hne
    · rcases hr with hr | hr
      · rw [e] at hr; simp at hr
      · have := ((parent_iff hpr.1 hd).mp hp).1
        omega
    · obtain ⟨h1, h2⟩ := descends_clear hpr.2.1 hds
      obtain ⟨h3, h4⟩ := takeWhile_stop (p := fun c => !endsName c) (joinDots ps) s (fun c hc => by simp [h2 c hc])
        (fun c r' he => by simp [(nameEnds_iff s).mp hends c r' he])
      rw [e, h3, h4]
      have hle := descends_le hds
      refine ⟨j - h.pos, (hml _ _).mpr ⟨ps, hpne, rfl, by rw [show h.pos + (j - h.pos) = j by omega]; exact hds⟩, ?_⟩
      rw [show h.pos + (j - h.pos) = j by omega]
      exact f
    · cases e
    all_goals
      obtain ⟨rfl, rfl⟩ := at_unique hat hx'
      simp only [ProperDatum] at hxd
    · rw [hs] at hxd; cases hxd.1
    · rw [hs] at hxd; cases hxd.1
    · rw [hs] at hxd; cases hxd.1
    · rw [hs] at hxd
      rcases hxd.1 with h | h | h <;> cases h
  · rintro ⟨o, ho, f⟩
    obtain ⟨ps, hne, hk, hds⟩ := (hml _ _).mp ho
    obtain ⟨h1, h2⟩ := descends_clear hpr.2.1 hds
    have hsplit := split_while (fun c => !endsName c) r
    rw [hk] at hsplit
    refine ⟨?_, ?_⟩
    · intro he
      rw [he] at hk
      exact h1 hne hk.symm
    · rw [← hsplit]
      refine .member h h' ps (h.pos + o) _ hne hds ((nameEnds_iff _).mpr fun c r' he => ?_) f
      have := dropWhile_stop _ _ c r' he
      simpa using this

theorem round_struct (first dot : Bool) (c : Byte) (s : Str) (h : Handle) (hf : Fine dot h) (d : FieldDesc) (hd : h.desc[h.pos]? = some d)
    (hs : d.code = .Struct) (hc : c ≠ 0x3c) : RoundOK dot (c :: s) h (stepStruct first dot (c :: s) h d) := by
  have hpr := hf.proper
  simp only [Proper] at hpr
  obtain ⟨mm, x, hx, hxd⟩ := at_of hpr.2.2 hd
  have hat : At h d x := ⟨hd, mm, hx⟩
  have hff : Fine false h := ⟨hf.proper, hf.inside, fun h => by cases h⟩
  have hml := (table_of hpr.1).2 h.pos d hd hs
  have hfound := ((table_of hpr.1).1 h.pos d hd).found hs
  have hinside := ((table_of hpr.1).1 h.pos d hd).inside
  -- the names which are found are not empty
  have hnonempty : ∀ o, d.mlookup.find? [] = some o → False := by
    intro o ho
    obtain ⟨ps, hne, hk, hds⟩ := (hml _ _).mp ho
    exact (descends_clear hpr.2.1 hds).1 hne hk.symm
  -- when a dot is expected
  have hdot : dot = true → ∀ h', Leads dot h (c :: s) h' ↔ c = 0x2e ∧ s ≠ [] ∧ Leads false h s h' := by
    intro he h'
    subst he
    constructor
    · intro f
      rcases leads_inv f with ⟨e, _⟩ | ⟨p, s, e, hp, f⟩ | ⟨e, _⟩ | ⟨_, d', s', e, _, _, hne, f⟩ | ⟨d', name, off, i, t, cs, s, e, hx', _⟩ |
        ⟨d', i, t, cs, s, e, hx', _⟩ | ⟨d', t, cs, s, e, hx', _⟩ | ⟨d', vs, num, n, t, cs, s, e, hx', _⟩
      · cases e
      · injection e with e _; exact absurd e hc
      · cases e
      · injection e with e1 e2
        subst e1 e2
        exact ⟨rfl, hne, f⟩
      all_goals
        obtain ⟨rfl, rfl⟩ := at_unique hat hx'
        simp only [ProperDatum] at hxd
      · rw [hs] at hxd; cases hxd.1
      · rw [hs] at hxd; cases hxd.1
      · rw [hs] at hxd; cases hxd.1
      · rw [hs] at hxd
        rcases hxd.1 with h | h | h <;> cases h
    · rintro ⟨rfl, hne, f⟩
      exact .dotted h h' d s hd hs hne f
  -- the common part: the rest `r` of the expression after a dot
  have common : ∀ (r : Str) (pre : Str), c :: s = pre ++ r → (r.head? ≠ some 0x3c ∨ h.pos = 0) →
      (∀ h', Leads dot h (c :: s) h' ↔ (r ≠ [] ∧ Leads false h r h')) →
      RoundOK dot (c :: s) h (match d.mlookup.find? (r.takeWhile fun c => !endsName c) with
        | some o => .go false (r.dropWhile fun c => !endsName c) { h with pos := h.pos + o }
        | none => .null) := by
    intro r pre hsp hr hfo
    cases hfind : d.mlookup.find? (r.takeWhile fun c => !endsName c) with
    | none =>
      intro h' f
      obtain ⟨o, ho, _⟩ := (member_iff h hff d hd hs r hr h').mp ((hfo h').mp f)
      rw [hfind] at ho
      cases ho
    | some o =>
      refine ⟨⟨pre ++ r.takeWhile (fun c => !endsName c), ?_, ?_⟩, ⟨hf.proper, ?_, fun h => by cases h⟩, fun h' => ?_⟩
      · intro he
        have := (List.append_eq_nil_iff.mp he).2
        rw [this] at hfind
        exact hnonempty o hfind
      · rw [List.append_assoc, split_while]
        exact hsp
      · show h.pos + o < h.desc.length
        have := (hfound _ _ hfind).2
        omega
      · rw [hfo, member_iff h hff d hd hs r hr h', hfind]
        constructor
        · rintro ⟨o', ho, f⟩
          injection ho with ho
          subst ho
          exact f
        · intro f
          exact ⟨o, rfl, f⟩
  unfold stepStruct
  cases dot with
  | true =>
    by_cases hcd : c = 0x2e
    · subst hcd
      simp only [List.head?_cons, ne_eq, not_true_eq_false, and_false, if_false, if_true, List.tail_cons, Bool.not_true, Bool.and_false, Bool.false_and,
        Bool.false_eq_true]
      exact common s [0x2e] rfl (Or.inr (hf.top rfl)) (fun h' => by rw [hdot rfl h']; simp)
    · rw [if_pos ⟨rfl, by simpa using hcd⟩]
      intro h' f
      exact hcd ((hdot rfl h').mp f).1
  | false =>
    simp only [Bool.false_eq_true, false_and, if_false, Bool.not_false, Bool.and_true]
    have hcom := common (c :: s) [] rfl (Or.inl (by simpa using hc)) (fun h' => by simp)
    split
    · rename_i hempty
      simp only [Bool.and_eq_true, List.isEmpty_iff] at hempty
      rw [hempty.1.2] at hcom
      cases hfind : d.mlookup.find? [] with
      | none => rw [hfind] at hcom; exact hcom
      | some o => exact absurd (hnonempty o hfind) id
    · exact hcom

theorem datum_of {h : Handle} {d : FieldDesc} {x : Datum} (hat : At h d x) : datumAt h.cells h.pos = x := by
  obtain ⟨_, m, hm⟩ := hat
  simp only [datumAt, hm, Cell.data]

/-- after a node which is a Union, an Any or an array only some things can come -/
theorem leads_other {dot : Bool} {h h' : Handle} {d : FieldDesc} {x : Datum} {c : Byte} {s : Str} (hat : At h d x) (hns : d.code ≠ .Struct)
    (hc : c ≠ 0x3c) (f : Leads dot h (c :: s) h') :
    (∃ name off i t cs s', c :: s = 0x2d :: 0x3e :: (name ++ s') ∧ x = .union i (.mk t cs) ∧ d.miter[i]? = some (name, off) ∧ ChoiceEnds s' ∧
      Leads true ⟨t, cs, 0⟩ s' h') ∨
    (∃ i t cs s', c :: s = 0x2d :: 0x3e :: s' ∧ x = .union i (.mk t cs) ∧ (∀ p ∈ d.miter, ∀ r, s' = p.1 ++ r → ¬ ChoiceEnds r) ∧
      Leads false ⟨t, cs, 0⟩ s' h') ∨
    (∃ t cs s', c :: s = 0x2d :: 0x3e :: s' ∧ x = .any (.mk t cs) ∧ Leads false ⟨t, cs, 0⟩ s' h') ∨
    (∃ vs num n t cs s', c :: s = 0x5b :: (num ++ 0x5d :: s') ∧ x = .vals vs ∧ IndexText num n ∧ 0x5d ∉ num ∧ vs[n]? = some (.mk t cs) ∧
      Leads true ⟨t, cs, 0⟩ s' h') := by
  rcases leads_inv f with ⟨e, _⟩ | ⟨p, s, e, hp, f⟩ | ⟨_, ps, j, s, e, hne, hds, _⟩ | ⟨_, d', s', e, hd', hs', _⟩ |
    ⟨d', name, off, i, t, cs, s', e, hx', hi, hs', f⟩ | ⟨d', i, t, cs, s', e, hx', hn, f⟩ | ⟨d', t, cs, s', e, hx', f⟩ |
    ⟨d', vs, num, n, t, cs, s', e, hx', hn, hb, hv, f⟩
  · cases e
  · injection e with e _; exact absurd e hc
  · obtain ⟨d', hd', hs'⟩ := descends_struct hds hne
    rw [hat.1] at hd'
    cases hd'
    exact absurd hs' hns
  · rw [hat.1] at hd'
    cases hd'
    exact absurd hs' hns
  all_goals obtain ⟨rfl, rfl⟩ := at_unique hat hx'
  · exact Or.inl ⟨name, off, i, t, cs, s', e, rfl, hi, hs', f⟩
  · exact Or.inr (Or.inl ⟨i, t, cs, s', e, rfl, hn, f⟩)
  · exact Or.inr (Or.inr (Or.inl ⟨t, cs, s', e, rfl, f⟩))
  · exact Or.inr (Or.inr (Or.inr ⟨vs, num, n, t, cs, s', e, rfl, hn, hb, hv, f⟩))

theorem clear_choice {t : List FieldDesc} (hc : ClearNames t) {d : FieldDesc} (hd : d ∈ t) {p : Str × Nat} (hp : p ∈ d.miter) :
    ∀ c ∈ p.1, endsChoice c = false := by
  intro c hcm
  obtain ⟨h1, h2, h3, h4⟩ := ((hc d hd).1 p hp).2 c hcm
  simp [endsChoice, endsName, h1, h2, h3, h4]

theorem round_union (dot : Bool) (r : Str) (h : Handle) (hf : Fine dot h) (d : FieldDesc) (x : Datum) (hat : At h d x) (hxd : ProperDatum d x)
    (hcode : d.code = .Union) : RoundOK dot (0x2d :: 0x3e :: r) h (stepUnion false r d x) := by
  have hpr := hf.proper
  simp only [Proper] at hpr
  have hmem := List.mem_of_getElem? hat.1
  obtain ⟨hnames, hoffs⟩ := union_names hpr.1 hpr.2.1 hmem hcode
  have split_of : ∀ p ∈ d.miter, ∀ s', ChoiceEnds s' → r = p.1 ++ s' →
      r.takeWhile (fun c => !endsChoice c) = p.1 ∧ r.dropWhile (fun c => !endsChoice c) = s' := by
    intro p hp s' hends he
    rw [he]
    exact takeWhile_stop _ _ (fun c hc => by simp [clear_choice hpr.2.1 hmem hp c hc])
      (fun c r' he => by simp [(choiceEnds_iff s').mp hends c r' he])
  have inv : ∀ h', Leads dot h (0x2d :: 0x3e :: r) h' → ∃ i t cs, x = .union i (.mk t cs) ∧
      ((∃ off, d.miter[i]? = some (r.takeWhile (fun c => !endsChoice c), off) ∧ Leads true ⟨t, cs, 0⟩ (r.dropWhile fun c => !endsChoice c) h') ∨
       (d.mlookup.find? (r.takeWhile fun c => !endsChoice c) = none ∧ Leads false ⟨t, cs, 0⟩ r h')) := by
    intro h' f
    rcases leads_other hat (by rw [hcode]; decide) (by decide) f with ⟨name, off, i, t, cs, s', e, rfl, hi, hs', f⟩ | ⟨i, t, cs, s', e, rfl, hn, f⟩ |
      ⟨t, cs, s', e, rfl, f⟩ | ⟨vs, num, n, t, cs, s', e, _⟩
    · injection e with _ e
      injection e with _ e
      obtain ⟨h1, h2⟩ := split_of _ (List.mem_of_getElem? hi) s' hs' e
      exact ⟨i, t, cs, rfl, Or.inl ⟨off, by rw [h1]; exact hi, by rw [h2]; exact f⟩⟩
    · injection e with _ e
      injection e with _ e
      subst e
      refine ⟨i, t, cs, rfl, Or.inr ⟨?_, f⟩⟩
      cases hfi : d.mlookup.find? (r.takeWhile fun c => !endsChoice c) with
      | none => rfl
      | some o =>
        refine absurd ((choiceEnds_iff _).mpr ?_) (hn _ ((hnames _ _).mp hfi) (r.dropWhile fun c => !endsChoice c) (split_while _ r).symm)
        intro c r' he
        simpa using dropWhile_stop _ _ c r' he
    · simp only [ProperDatum] at hxd
      rw [hcode] at hxd
      cases hxd.1
    · injection e with e _; exact absurd e (by decide)
  have hends : ChoiceEnds (r.dropWhile fun c => !endsChoice c) := (choiceEnds_iff _).mpr fun c r' he => by simpa using dropWhile_stop _ _ c r' he
  unfold stepUnion
  simp only [Bool.false_eq_true, if_false]
  cases hfi : d.mlookup.find? (r.takeWhile fun c => !endsChoice c) with
  | some o =>
    have hin := (hnames _ _).mp hfi
    split
    · rename_i o' i t cs he
      cases he
      simp only [ProperDatum] at hxd
      split
      · rename_i hch
        obtain ⟨p, hp, hpo⟩ : ∃ p, d.miter[i]? = some p ∧ p.2 = o := by simpa [choiceAt] using hch
        obtain ⟨n', o'⟩ := p
        simp only at hpo
        subst hpo
        have hn' := hoffs _ _ _ hin (List.mem_of_getElem? hp)
        refine ⟨⟨0x2d :: 0x3e :: r.takeWhile (fun c => !endsChoice c), by simp, by simp [split_while]⟩, fine_root true hxd.2.2.2, fun h' => ⟨fun f => ?_, fun f => ?_⟩⟩
        · obtain ⟨i', t', cs', e, hcase⟩ := inv h' f
          cases e
          rcases hcase with ⟨off, _, f⟩ | ⟨e, _⟩
          · exact f
          · rw [hfi] at e; cases e
        · have := Leads.choice dot h h' d n' o' i t cs _ hat hp hends f
          rw [← hn', split_while] at this
          exact this
      · rename_i hch
        intro h' f
        obtain ⟨i', t', cs', e, hcase⟩ := inv h' f
        cases e
        rcases hcase with ⟨off, hi, f⟩ | ⟨e, _⟩
        · have := (hnames _ _).mpr (List.mem_of_getElem? hi)
          rw [hfi] at this
          cases this
          exact hch (by simp [choiceAt, hi])
        · rw [hfi] at e; cases e
    · rename_i he hno
      intro h' f
      obtain ⟨i', t', cs', e, hcase⟩ := inv h' f
      exact hno i' t' cs' e
    · rename_i he; cases he
    · rename_i he _; cases he
  | none =>
    split
    · rename_i he; cases he
    · rename_i he _; cases he
    · rename_i i t cs _
      simp only [ProperDatum] at hxd
      refine ⟨⟨[0x2d, 0x3e], by simp, by simp⟩, fine_root false hxd.2.2.2, fun h' => ⟨fun f => ?_, fun f => ?_⟩⟩
      · obtain ⟨i', t', cs', e, hcase⟩ := inv h' f
        cases e
        rcases hcase with ⟨off, hi, _⟩ | ⟨_, f⟩
        · have := (hnames _ _).mpr (List.mem_of_getElem? hi)
          rw [hfi] at this
          cases this
        · exact f
      · refine .selected dot h h' d i t cs r hat (fun p hp s' he hs' => ?_) f
        have h1 := (split_of p hp s' hs' he).1
        have := (hnames p.1 p.2).mpr hp
        rw [← h1, hfi] at this
        cases this
    · rename_i hno
      intro h' f
      obtain ⟨i', t', cs', e, _⟩ := inv h' f
      exact hno _ _ _ e

theorem round_any (dot : Bool) (r : Str) (h : Handle) (hf : Fine dot h) (d : FieldDesc) (x : Datum) (hat : At h d x) (hxd : ProperDatum d x)
    (hcode : d.code = .Any) : RoundOK dot (0x2d :: 0x3e :: r) h (stepAny r x) := by
  have inv : ∀ h', Leads dot h (0x2d :: 0x3e :: r) h' → ∃ t cs, x = .any (.mk t cs) ∧ Leads false ⟨t, cs, 0⟩ r h' := by
    intro h' f
    rcases leads_other hat (by rw [hcode]; decide) (by decide) f with ⟨name, off, i, t, cs, s', e, rfl, hi, hs', f⟩ | ⟨i, t, cs, s', e, rfl, hn, f⟩ |
      ⟨t, cs, s', e, rfl, f⟩ | ⟨vs, num, n, t, cs, s', e, _⟩
    · simp only [ProperDatum] at hxd
      rw [hcode] at hxd
      cases hxd.1
    · simp only [ProperDatum] at hxd
      rw [hcode] at hxd
      cases hxd.1
    · injection e with _ e
      injection e with _ e
      subst e
      exact ⟨t, cs, rfl, f⟩
    · injection e with e _; exact absurd e (by decide)
  unfold stepAny
  split
  · rename_i t cs
    simp only [ProperDatum] at hxd
    refine ⟨⟨[0x2d, 0x3e], by simp, by simp⟩, fine_root false hxd.2, fun h' => ⟨fun f => ?_, fun f => .any dot h h' d t cs r hat f⟩⟩
    obtain ⟨t', cs', e, f⟩ := inv h' f
    cases e
    exact f
  · rename_i hno
    intro h' f
    obtain ⟨t', cs', e, f⟩ := inv h' f
    exact hno _ _ e

theorem index_text (s : Str) (n : Nat) : parseU64 s = some n ↔ IndexText s n := Props.Scl.C58_text_unsigned s n

theorem index_nonempty {s : Str} {n : Nat} (h : IndexText s n) : s ≠ [] := by
  intro he
  subst he
  have := (index_text [] n).mpr h
  have h0 : parseU64 [] = none := by decide
  rw [h0] at this
  cases this

theorem split_spec (s num rest : Str) : splitIndex s = some (num, rest) ↔ s = 0x5b :: (num ++ 0x5d :: rest) ∧ num ≠ [] ∧ 0x5d ∉ num := by
  constructor
  · intro h
    unfold splitIndex at h
    split at h
    · rename_i r
      split at h
      · cases h
      · rename_i c rest' hd
        split at h
        · cases h
        · rename_i hne
          injection h with h
          injection h with h1 h2
          subst h1 h2
          have hc := dropWhile_stop _ _ c rest' hd
          simp only [bne_eq_false_iff_eq] at hc
          refine ⟨?_, hne, fun hm => ?_⟩
          · have := split_while (· != 0x5d) r
            rw [hd, hc] at this
            rw [this]
          · have := List.all_takeWhile (p := (· != 0x5d)) (l := r)
            rw [List.all_eq_true] at this
            have := this _ hm
            simp at this
    · cases h
  · rintro ⟨rfl, hne, hn⟩
    obtain ⟨h1, h2⟩ := takeWhile_stop (p := (· != 0x5d)) num (0x5d :: rest) (fun c hc => by simp; intro e; exact hn (e ▸ hc))
      (fun c r he => by injection he with he; simp [← he])
    simp only [splitIndex, h1, h2, if_neg hne]

theorem round_index (dot : Bool) (c : Byte) (s : Str) (h : Handle) (d : FieldDesc) (x : Datum) (hat : At h d x) (hxd : ProperDatum d x)
    (hcode : d.code = .StructA ∨ d.code = .UnionA ∨ d.code = .AnyA) (hc : c ≠ 0x3c) : RoundOK dot (c :: s) h (stepIndex (c :: s) x) := by
  have inv : ∀ h', Leads dot h (c :: s) h' → ∃ vs num n t cs s', splitIndex (c :: s) = some (num, s') ∧ x = .vals vs ∧ parseU64 num = some n ∧
      vs[n]? = some (.mk t cs) ∧ Leads true ⟨t, cs, 0⟩ s' h' := by
    intro h' f
    rcases leads_other hat (by intro e; rw [e] at hcode; rcases hcode with h | h | h <;> cases h) hc f with
      ⟨name, off, i, t, cs, s', e, rfl, hi, hs', f⟩ | ⟨i, t, cs, s', e, rfl, hn, f⟩ |
      ⟨t, cs, s', e, rfl, f⟩ | ⟨vs, num, n, t, cs, s', e, rfl, hn, hb, hv, f⟩
    · simp only [ProperDatum] at hxd
      rw [hxd.1] at hcode
      rcases hcode with h | h | h <;> cases h
    · simp only [ProperDatum] at hxd
      rw [hxd.1] at hcode
      rcases hcode with h | h | h <;> cases h
    · simp only [ProperDatum] at hxd
      rw [hxd.1] at hcode
      rcases hcode with h | h | h <;> cases h
    · exact ⟨vs, num, n, t, cs, s', (split_spec _ _ _).mpr ⟨e, index_nonempty hn, hb⟩, rfl, (index_text _ _).mpr hn, hv, f⟩
  unfold stepIndex
  cases hsp : splitIndex (c :: s) with
  | none =>
    intro h' f
    obtain ⟨vs, num, n, t, cs, s', e, _⟩ := inv h' f
    rw [hsp] at e; cases e
  | some pr =>
    obtain ⟨num, rest⟩ := pr
    simp only
    obtain ⟨he, hne, hnb⟩ := (split_spec _ _ _).mp hsp
    cases hp : parseU64 num with
    | none =>
      refine ⟨fun h' f => ?_, fun hnum => ?_⟩
      · obtain ⟨vs, num', n, t, cs, s', e, _, hp', _⟩ := inv h' f
        rw [hsp] at e
        cases e
        rw [hp] at hp'; cases hp'
      · obtain ⟨n, hn⟩ := hnum [] num rest (by rw [he]; rfl) hnb hne
        have := (index_text _ _).mpr hn
        rw [hp] at this; cases this
    | some n =>
      simp only
      split
      · rename_i vs
        simp only [ProperDatum] at hxd
        split
        · rename_i t cs hv
          refine ⟨⟨0x5b :: (num ++ [0x5d]), by simp, by rw [he]; simp⟩, fine_root true (properVals_get hxd.2 hv), fun h' => ⟨fun f => ?_, fun f => ?_⟩⟩
          · obtain ⟨vs', num', n', t', cs', s', e, ex, hp', hv', f⟩ := inv h' f
            rw [hsp] at e
            cases e
            cases ex
            rw [hp] at hp'
            cases hp'
            rw [hv] at hv'
            cases hv'
            exact f
          · rw [he]
            exact .element dot h h' d vs num n t cs rest hat ((index_text _ _).mp hp) hnb hv f
        · rename_i hno
          intro h' f
          obtain ⟨vs', num', n', t', cs', s', e, ex, hp', hv', f⟩ := inv h' f
          rw [hsp] at e
          cases e
          cases ex
          rw [hp] at hp'
          cases hp'
          exact hno _ _ hv'
      · rename_i hno
        intro h' f
        obtain ⟨vs', num', n', t', cs', s', e, ex, _⟩ := inv h' f
        exact hno _ ex

theorem round_ok (first dot : Bool) (c : Byte) (s : Str) (h : Handle) (hf : Fine dot h) :
    RoundOK dot (c :: s) h (stepLookup false first dot (c :: s) h) := by
  have hpr := hf.proper
  simp only [Proper] at hpr
  have hd : h.desc[h.pos]? = some (h.desc[h.pos]'hf.inside) := List.getElem?_eq_getElem hf.inside
  generalize h.desc[h.pos]'hf.inside = d at hd
  obtain ⟨mm, x, hx, hxd⟩ := at_of hpr.2.2 hd
  have hat : At h d x := ⟨hd, mm, hx⟩
  unfold stepLookup
  rw [hd, datum_of hat]
  simp only
  by_cases hc : c = 0x3c
  · subst hc
    exact round_parent dot s h hf d hd
  · split
    · rename_i r he
      injection he with he _
      exact absurd he hc
    · by_cases hs : d.code = .Struct
      · rw [if_pos hs]
        exact round_struct first dot c s h hf d hd hs hc
      · rw [if_neg hs]
        by_cases hu : d.code = .Union ∨ d.code = .Any
        · rw [if_pos hu]
          split
          · rename_i r he
            rw [he]
            by_cases ha : d.code = .Any
            · rw [if_pos ha]
              exact round_any dot r h hf d x hat hxd ha
            · rw [if_neg ha]
              exact round_union dot r h hf d x hat hxd (hu.resolve_right ha)
          · rename_i hno
            intro h' f
            rcases leads_other hat hs hc f with ⟨name, off, i, t, cs, s', e, _⟩ | ⟨i, t, cs, s', e, _⟩ |
              ⟨t, cs, s', e, _⟩ | ⟨vs, num, n, t, cs, s', e, rfl, _⟩
            · exact hno _ e
            · exact hno _ e
            · exact hno _ e
            · simp only [ProperDatum] at hxd
              rcases hu with hu | hu <;> rw [hu] at hxd <;> rcases hxd.1 with h | h | h <;> cases h
        · rw [if_neg hu]
          by_cases ha : d.code = .StructA ∨ d.code = .UnionA ∨ d.code = .AnyA
          · rw [if_pos ha]
            exact round_index dot c s h d x hat hxd ha hc
          · rw [if_neg ha]
            intro h' f
            rcases leads_other hat hs hc f with ⟨name, off, i, t, cs, s', e, rfl, _⟩ | ⟨i, t, cs, s', e, rfl, _⟩ |
              ⟨t, cs, s', e, rfl, _⟩ | ⟨vs, num, n, t, cs, s', e, rfl, _⟩
            · exact hu (Or.inl (by simp only [ProperDatum] at hxd; exact hxd.1))
            · exact hu (Or.inl (by simp only [ProperDatum] at hxd; exact hxd.1))
            · exact hu (Or.inr (by simp only [ProperDatum] at hxd; exact hxd.1))
            · exact ha (by simp only [ProperDatum] at hxd; exact hxd.1)

theorem leads_nil {dot : Bool} {h h' : Handle} (f : Leads dot h [] h') (hp : Proper (.mk h.desc h.cells)) : h' = h := by
  simp only [Proper] at hp
  rcases leads_inv f with ⟨_, e⟩ | ⟨p, s, e, _⟩ | ⟨_, ps, j, s, e, hne, hds, _⟩ | ⟨_, d', s', e, _⟩ |
    ⟨d', name, off, i, t, cs, s', e, _⟩ | ⟨d', i, t, cs, s', e, _⟩ | ⟨d', t, cs, s', e, _⟩ | ⟨d', vs, num, n, t, cs, s', e, _⟩
  · exact e
  · cases e
  · exact absurd (List.append_eq_nil_iff.mp e.symm).1 ((descends_clear hp.2.1 hds).1 hne)
  all_goals cases e

theorem traverse_ok : ∀ (k : Nat) (s : Str), s.length ≤ k → ∀ (first dot : Bool) (h : Handle), Fine dot h →
    (∀ h', traverse false first dot s h = .ok (some h') ↔ Leads dot h s h') ∧
    (∃ r, traverse false first dot s h = .ok r ∨ (¬ Numeric s ∧ traverse false first dot s h = .throws "NoConvert")) := by
  intro k
  induction k with
  | zero =>
    intro s hs first dot h hf
    have : s = [] := List.length_eq_zero_iff.mp (by omega)
    subst this
    rw [traverse]
    refine ⟨fun h' => ⟨fun e => ?_, fun f => ?_⟩, _, Or.inl rfl⟩
    · cases e; exact .here dot h
    · rw [leads_nil f hf.proper]
  | succ k ih =>
    intro s hs first dot h hf
    cases s with
    | nil => exact ih [] (by simp) first dot h hf
    | cons c s =>
      have hr := round_ok first dot c s h hf
      rw [traverse]
      cases hst : stepLookup false first dot (c :: s) h with
      | go dot' rest h1 =>
        rw [hst] at hr
        obtain ⟨⟨a, hane, hae⟩, hf1, hiff⟩ := hr
        have hlen : rest.length < (c :: s).length := by
          rw [hae, List.length_append]
          have := List.length_pos_iff.mpr hane
          omega
        have hadv : advances (c :: s) rest h h1 = true := by simp only [advances, decide_eq_true hlen, Bool.true_or]
        simp only [hadv, dite_true]
        obtain ⟨h2, r, h3⟩ := ih rest (by omega) false dot' h1 hf1
        refine ⟨fun h' => by rw [h2, hiff], r, ?_⟩
        rcases h3 with h3 | ⟨h3, h4⟩
        · exact Or.inl h3
        · exact Or.inr ⟨fun hn => h3 (numeric_suffix (a := a) (by rw [← hae]; exact hn)), h4⟩
      | null =>
        rw [hst] at hr
        refine ⟨fun h' => ⟨fun e => by simp at e, fun f => absurd f (hr h')⟩, none, Or.inl rfl⟩
      | throws =>
        rw [hst] at hr
        refine ⟨fun h' => ⟨fun e => by simp at e, fun f => absurd f (hr.1 h')⟩, none, Or.inr ⟨hr.2, rfl⟩⟩
      | ub =>
        rw [hst] at hr
        exact absurd hr id

/-! ### C18 -/

/-- Looking up an expression in a value finds the node which the expression names, and only this.  Missing: types which have odd names (empty,
or with a character which means something in an expression), which only a peer can define. -/
theorem C18_partial (h : Handle) (hp : Proper (.mk h.desc h.cells)) (hi : h.pos < h.desc.length) (e : Str) :
    (∀ h', index false h e = .ok (some h') ↔ Leads false h e h') ∧
    (∀ h', lookup false h e = .ok h' ↔ Leads false h e h') ∧
    ((∀ h', ¬ Leads false h e h') → Numeric e → index false h e = .ok none ∧ lookup false h e = .throws "LookupError") ∧
    (¬ Numeric e → (∃ r, index false h e = .ok r) ∨ index false h e = .throws "NoConvert") := by
  obtain ⟨h1, r, h2⟩ := traverse_ok e.length e (Nat.le_refl _) true false h ⟨hp, hi, fun h => by cases h⟩
  refine ⟨h1, fun h' => ?_, fun hno hn => ?_, fun _ => ?_⟩
  · rw [← h1]
    show (index false h e >>= _) = _ ↔ index false h e = _
    cases hx : index false h e with
    | ok r =>
      cases r with
      | some a => show Res.ok a = .ok h' ↔ _; simp
      | none => show Res.throws _ = .ok h' ↔ _; simp
    | throws m => show Res.throws m = .ok h' ↔ _; simp
    | ub => show Res.ub = .ok h' ↔ _; simp
  · have h3 : index false h e = .ok none := by
      rcases h2 with h2 | ⟨h2, _⟩
      · cases r with
        | none => exact h2
        | some a => exact absurd ((h1 a).mp h2) (hno a)
      · exact absurd hn h2
    refine ⟨h3, ?_⟩
    show (index false h e >>= _) = _
    rw [h3]
    rfl
  · rcases h2 with h2 | ⟨_, h2⟩
    · exact Or.inl ⟨r, h2⟩
    · exact Or.inr h2

theorem step_modify (first dot : Bool) (s : Str) (h : Handle) :
    stepLookup true first dot s h = stepLookup false first dot s h ∨ stepLookup false first dot s h = .null := by
  have hu : ∀ r d x, stepUnion true r d x = stepUnion false r d x ∨ stepUnion false r d x = .null := by
    intro r d x
    simp only [stepUnion, Bool.false_eq_true, if_false, if_true]
    split
    · split
      · exact Or.inl rfl
      · exact Or.inr rfl
    · exact Or.inr rfl
    · exact Or.inl rfl
    · exact Or.inl rfl
  unfold stepLookup
  split
  · exact Or.inl rfl
  · split
    · exact Or.inl rfl
    · split
      · exact Or.inl rfl
      · split
        · split
          · split
            · exact Or.inl rfl
            · exact hu _ _ _
          · exact Or.inl rfl
        · exact Or.inl rfl

theorem traverse_modify (h' : Handle) : ∀ (first dot : Bool) (s : Str) (h : Handle), traverse false first dot s h = .ok (some h') →
    traverse true first dot s h = .ok (some h') := by
  intro first dot s h
  fun_induction traverse false first dot s h with
  | case1 first dot h => intro e; rw [traverse]; exact e
  | case2 first dot h c s dot' rest h1 hst hadv ih =>
    intro e
    rw [traverse]
    rcases step_modify first dot (c :: s) h with h2 | h2
    · rw [h2, hst]
      simp only [hadv, dite_true]
      exact ih e
    · rw [hst] at h2; cases h2
  | case3 => intro e; simp at e
  | case4 => intro e; simp at e
  | case5 => intro e; simp at e
  | case6 => intro e; simp at e

/-- A lookup through a Value which may be changed finds the same; and it selects a choice which is named but not selected, the Union then
holding a new value of the type of this choice. -/
theorem C18_modify_partial (h : Handle) (hp : Proper (.mk h.desc h.cells)) (hi : h.pos < h.desc.length) :
    (∀ e h', Leads false h e h' → index true h e = .ok (some h') ∧ lookup true h e = .ok h') ∧
    (∀ d x name off t cs, At h d x → d.code = .Union → (name, off) ∈ d.miter → (∀ i v, x = .union i v → d.miter[i]? ≠ some (name, off)) →
      newValue (subTable d.members off) = .ok (.mk t cs) → index true h (0x2d :: 0x3e :: name) = .ok (some ⟨t, cs, 0⟩) ∧
      index false h (0x2d :: 0x3e :: name) = .ok none) := by
  refine ⟨fun e h' f => ?_, fun d x name off t cs hat hcode hmem hno hnew => ?_⟩
  · have h1 := traverse_modify h' true false e h (((C18_partial h hp hi e).1 h').mpr f)
    refine ⟨h1, ?_⟩
    show (index true h e >>= _) = _
    rw [show index true h e = .ok (some h') from h1]
    rfl
  · have hpr := hp
    simp only [Proper] at hpr
    have hdm := List.mem_of_getElem? hat.1
    obtain ⟨hnames, hoffs⟩ := union_names hpr.1 hpr.2.1 hdm hcode
    obtain ⟨h1, h2⟩ := takeWhile_stop (p := fun c => !endsChoice c) name [] (fun c hc => by simp [clear_choice hpr.2.1 hdm hmem c hc])
      (fun c r he => by cases he)
    rw [List.append_nil] at h1 h2
    have hfi := (hnames _ _).mpr hmem
    have hstep : ∀ m, stepLookup m true false (0x2d :: 0x3e :: name) h = if m then .go true [] ⟨t, cs, 0⟩ else .null := by
      intro m
      unfold stepLookup
      rw [hat.1, datum_of hat]
      have hns : d.code ≠ .Struct := by rw [hcode]; decide
      have hna : d.code ≠ .Any := by rw [hcode]; decide
      simp only [if_neg hns, if_neg hna, if_pos (show d.code = .Union ∨ d.code = .Any from Or.inl hcode), stepUnion, h1, h2, hfi, hnew]
      split
      · rename_i he
        injection he with he _
        exact absurd he (by decide)
      split
      · rename_i o' i t' cs' he
        cases he
        have hch : ¬ choiceAt d off i = true := ?_
        · rw [if_neg hch, hnew]
        intro hch
        obtain ⟨p, hp1, hp2⟩ : ∃ p, d.miter[i]? = some p ∧ p.2 = off := by simpa [choiceAt] using hch
        obtain ⟨n', o'⟩ := p
        simp only at hp2
        subst hp2
        rw [hoffs _ _ _ (List.mem_of_getElem? hp1) hmem] at hp1
        exact hno i _ rfl hp1
      · rename_i he _
        cases he
        rw [hnew]
      · rename_i he; cases he
      · rename_i he _; cases he
    refine ⟨?_, ?_⟩
    · rw [index, traverse, hstep]
      simp [advances, traverse]
    · rw [index, traverse, hstep]
      simp

/-! ### examples -/

theorem strs_usable : Usable strsT :=
  ⟨.choice exT _ [0x74] 1 exT_usable.1 (List.mem_of_getElem? (i := 4) rfl) rfl (by simp) rfl, rfl⟩

theorem elem_usable : Usable elemT := ⟨.elem exT _ exT_usable.1 (List.mem_of_getElem? (i := 5) rfl) (Or.inl rfl), rfl⟩

def dblT : List FieldDesc := [{ code := .Float64 }]

theorem dbl_usable : Usable dblT :=
  ⟨.built { code := .Float64 } dblT (build_total { code := .Float64 } (by simp [Validated, ValidatedAll]; decide)
    (by simp [DistinctNames, DistinctNamesAll])), rfl⟩

theorem exT_clear : ClearNames exT := by unfold ClearNames; decide
theorem strs_clear : ClearNames strsT := by unfold ClearNames; decide
theorem elem_clear : ClearNames elemT := by unfold ClearNames; decide
theorem dbl_clear : ClearNames dblT := by unfold ClearNames; decide

theorem exV_proper (b : Bool) : Proper (exV b) := by
  simp only [exV, Proper]
  refine ⟨exT_usable, exT_clear, ?_⟩
  simp only [exT, ProperCells, ProperDatum, ProperVals, Proper]
  refine ⟨trivial, trivial, trivial, trivial, ⟨trivial, by simp, ⟨_, rfl, rfl⟩, strs_usable, strs_clear, ?_⟩,
    ⟨Or.inl trivial, trivial, ⟨elem_usable, elem_clear, ?_⟩, trivial⟩, trivial⟩
  · simp [strsT, ProperCells, ProperDatum]
  · simp only [elemT, ProperCells, ProperDatum, Proper]
    exact ⟨trivial, ⟨trivial, dbl_usable, dbl_clear, by simp [dblT, ProperCells, ProperDatum]⟩, trivial⟩

def exH : Handle := ⟨exT, (exV true).cells, 0⟩

/-- "u->t" -/
theorem leads_choice : Leads false exH [0x75, 0x2d, 0x3e, 0x74] ⟨strsT, [.mk false (.strs [[0x61], []])], 0⟩ := by
  refine .member exH _ [[0x75]] 4 [0x2d, 0x3e, 0x74] (by simp) ?_ (Or.inr ⟨_, Or.inr (Or.inr rfl)⟩) ?_
  · exact .member 0 _ _ 4 [] _ rfl rfl (by simp) (.here 4)
  · exact .choice false _ _ _ [0x74] 1 1 strsT _ [] ⟨rfl, _, rfl⟩ rfl (Or.inl (Or.inl rfl)) (.here _ _)

/-- "r[1].v->" -/
theorem leads_element : Leads false exH [0x72, 0x5b, 0x31, 0x5d, 0x2e, 0x76, 0x2d, 0x3e] ⟨dblT, [.mk false (.real 0x3ff0000000000000)], 0⟩ := by
  refine .member exH _ [[0x72]] 5 _ (by simp) ?_ (Or.inr ⟨_, Or.inr (Or.inl rfl)⟩) ?_
  · exact .member 0 _ _ 5 [] _ rfl rfl (by simp) (.here 5)
  · refine .element false _ _ _ _ [0x31] 1 elemT _ _ ⟨rfl, _, rfl⟩ ((index_text _ _).mp (by decide)) (by decide) rfl ?_
    refine .dotted _ _ _ _ rfl rfl (by simp) ?_
    refine .member _ _ [[0x76]] 1 _ (by simp) (.member 0 _ _ 1 [] _ rfl rfl (by simp) (.here 1)) (Or.inr ⟨_, Or.inr (Or.inr rfl)⟩) ?_
    exact .any false _ _ _ dblT _ [] ⟨rfl, _, rfl⟩ (.here _ _)

/-- "a.s<<v" -/
theorem leads_parent : Leads false exH [0x61, 0x2e, 0x73, 0x3c, 0x3c, 0x76] ⟨exT, (exV true).cells, 1⟩ := by
  refine .member exH _ [[0x61], [0x73]] 3 [0x3c, 0x3c, 0x76] (by simp) ?_ (Or.inr ⟨_, Or.inl rfl⟩) ?_
  · exact .member 0 _ _ 2 _ _ rfl rfl (by simp) (.member 2 _ _ 1 _ _ rfl rfl (by simp) (.here 3))
  refine .parent false _ _ 2 _ ⟨_, _, 1, rfl, rfl, List.mem_of_getElem? (i := 0) rfl, rfl⟩ ?_
  refine .parent false _ _ 0 _ ⟨_, _, 2, rfl, rfl, List.mem_of_getElem? (i := 1) rfl, rfl⟩ ?_
  exact .member _ _ [[0x76]] 1 [] (by simp) (.member 0 _ _ 1 [] _ rfl rfl (by simp) (.here 1)) (Or.inl rfl) (.here _ _)

/-- the hypotheses of `C18_partial`, and what it finds -/
example : Proper (.mk exH.desc exH.cells) ∧ exH.pos < exH.desc.length ∧
    index false exH [0x75, 0x2d, 0x3e, 0x74] = .ok (some ⟨strsT, [.mk false (.strs [[0x61], []])], 0⟩) ∧
    index false exH [0x72, 0x5b, 0x31, 0x5d, 0x2e, 0x76, 0x2d, 0x3e] = .ok (some ⟨dblT, [.mk false (.real 0x3ff0000000000000)], 0⟩) ∧
    lookup false exH [0x61, 0x2e, 0x73, 0x3c, 0x3c, 0x76] = .ok ⟨exT, (exV true).cells, 1⟩ := by
  have hp := exV_proper true
  have hi : exH.pos < exH.desc.length := by decide
  exact ⟨hp, hi, ((C18_partial exH hp hi _).1 _).mpr leads_choice, ((C18_partial exH hp hi _).1 _).mpr leads_element,
    ((C18_partial exH hp hi _).2.1 _).mpr leads_parent⟩

/-- "u->i": another choice than the one which is selected -/
example : index true ⟨exT, (exV true).cells, 4⟩ [0x2d, 0x3e, 0x69] = .ok (some ⟨[{ code := .Int32 }], [.mk false (.int 0)], 0⟩) ∧
    index false ⟨exT, (exV true).cells, 4⟩ [0x2d, 0x3e, 0x69] = .ok none :=
  (C18_modify_partial ⟨exT, (exV true).cells, 4⟩ (exV_proper true) (by decide)).2 _ _ [0x69] 0 _ _ ⟨rfl, _, rfl⟩ rfl
    (List.mem_of_getElem? (i := 0) rfl) (fun i v e => by cases e; simp) rfl

/-- operator[] gives an invalid Value for a field which does not exist, but throws for an index which is not a number. -/
theorem C18_throws : index false exH [0x72, 0x5b, 0x78, 0x5d] = .throws "NoConvert" ∧ index false exH [0x7a] = .ok none := by
  have h0 : parseU64 [0x78] = none := by decide
  constructor <;>
    simp [index, traverse, stepLookup, stepStruct, exH, exT, exV, endsName, SMap.find?, stepIndex, splitIndex, datumAt, Cell.data, advances, strLt, h0]

/-- A peer can send a type with a member which can not be looked up: its name is cut at the minus sign. -/
def oddT : List FieldDesc :=
  [{ code := .Struct, mlookup := [([0x61, 0x2d, 0x62], 1)], miter := [([0x61, 0x2d, 0x62], 1)] }, { code := .Int32, parentIndex := 1 }]

theorem C18_odd_name : Usable oddT ∧ Descends oddT 0 [[0x61, 0x2d, 0x62]] 1 ∧ ∀ cs, index false ⟨oddT, cs, 0⟩ [0x61, 0x2d, 0x62] = .ok none := by
  refine ⟨⟨.decoded [] (input true [0x80, 0, 1, 3, 0x61, 0x2d, 0x62, 0x22]) oddT (by rfl) (by rfl) (by simp [oddT]), rfl⟩,
    .member 0 _ _ 1 [] _ rfl rfl (by simp) (.here 1), fun cs => ?_⟩
  simp [index, traverse, stepLookup, stepStruct, oddT, endsName, SMap.find?]

end Pvxs.Props.Lkp
