import Verif.Spec.ClientConnect
/-
C85: connect().
-/
namespace Pvxs.Props.ClientConnect
open Pvxs Pvxs.ClientConnect Pvxs.Spec.ClientConnect

/-- what the callbacks of Connect i are, as far as exec() was called for it -/
structure Inv (s : St) (made gone : List Nat) : Prop where
  lost : s.lost = false
  nodup : s.reg.Nodup
  reg : ∀ i, i ∈ s.reg → i ∈ made ∧ ∃ o, s.objs i = some o ∧ o.built = true ∧ o.connected = s.active
  qnd : s.queue.Nodup
  qset : ∀ i, .setup i ∈ s.queue → i ∈ made ∧ i ∉ s.reg ∧
    ∃ o, s.objs i = some o ∧ o.built = false ∧ o.good = true
  qrem : ∀ a b i, s.queue = a ++ .remove i :: b → i ∈ gone ∧ (i ∈ s.reg ∨ .setup i ∈ a)
  wait : ∀ i, i ∈ made → i ∉ gone → i ∈ s.reg ∨ .setup i ∈ s.queue
  fresh : ∀ i, i ∉ made → s.objs i = none ∧ i ∉ gone

/-- the flags of the object of a Connect -/
def flags (s : St) (i : Nat) (c d : Bool) : Prop :=
  ∀ o, s.objs i = some o → o.onC = c ∧ o.onD = d

/-- every Connect of the list has seen the change -/
def setAll (s : St) (l : List Nat) (up : Bool) : Nat → Option Obj := fun j =>
  if j ∈ l then Option.map (fun o => { o with connected := up }) (s.objs j) else s.objs j

/-- the Connects which have a callback for the change -/
def tells (s : St) (up : Bool) (i : Nat) : Bool :=
  match s.objs i with
  | some o => o.connected != up && o.wants up
  | none => false

/-- the loop of quiet callbacks -/
theorem loop_quiet (up : Bool) (beh : Nat → Act) (hq : Quiet beh) :
    ∀ (l : List Nat) (s : St), l.Nodup →
      (∀ i, i ∈ l → ∃ o, s.objs i = some o) →
      (loop up beh s l).fate = .ok ∧
      (loop up beh s l).st = { s with objs := setAll s l up } ∧
      (loop up beh s l).outs = (l.filter (tells s up)).map fun i => { i := i, up := up } := by
  intro l
  induction l with
  | nil => intro s _ _; exact ⟨rfl, rfl, rfl⟩
  | cons i is ih =>
    intro s hn ho
    obtain ⟨o, hio⟩ := ho i (List.mem_cons_self ..)
    have hni : i ∉ is := (List.nodup_cons.mp hn).1
    have hne : ∀ j, j ∈ is → j ≠ i := fun j hj e => hni (e ▸ hj)
    have h1 := ih (setObj s i (some { o with connected := up })) (List.nodup_cons.mp hn).2
      (by
        intro j hj
        obtain ⟨p, hp⟩ := ho j (List.mem_cons_of_mem _ hj)
        exact ⟨p, by simp [setObj, hne j hj, hp]⟩)
    obtain ⟨f1, s1, o1⟩ := h1
    have hst : ({ setObj s i (some { o with connected := up }) with
        objs := setAll (setObj s i (some { o with connected := up })) is up } : St) =
      { s with objs := setAll s (i :: is) up } := by
      have : setAll (setObj s i (some { o with connected := up })) is up = setAll s (i :: is) up := by
        funext j
        by_cases hj : j = i
        · subst hj; simp [setAll, setObj, hni, hio]
        · simp [setAll, setObj, hj]
      rw [this]
      rfl
    have hfl : is.filter (tells (setObj s i (some { o with connected := up })) up) =
        is.filter (tells s up) := by
      apply List.filter_congr
      intro j hj
      simp [tells, setObj, hne j hj]
    rw [hst] at s1
    rw [hfl] at o1
    by_cases hw : (o.connected != up && o.wants up) = true
    · simp only [loop, hio, hw, if_true, hq i, act]
      refine ⟨f1, s1, ?_⟩
      rw [o1, List.filter_cons_of_pos (by simp only [tells, hio]; exact hw)]
      rfl
    · simp only [loop, hio, hw]
      refine ⟨f1, s1, ?_⟩
      rw [List.filter_cons_of_neg (by simp only [tells, hio]; exact hw)]
      exact o1

theorem calls_append (i : Nat) (a b : List Told) :
    calls i (a ++ b) = calls i a ++ calls i b := by
  simp [calls, List.filter_append]

theorem calls_map (i : Nat) (up : Bool) (l : List Nat) (hn : l.Nodup) :
    calls i (l.map fun j => { i := j, up := up }) = if i ∈ l then [up] else [] := by
  induction l with
  | nil => rfl
  | cons j l ih =>
    have h := List.nodup_cons.mp hn
    have h2 := ih h.2
    by_cases hj : j = i
    · subst hj
      simp only [h.1, if_false] at h2
      have : calls j ((j :: l).map fun k => ({ i := k, up := up } : Told)) =
        up :: calls j (l.map fun k => ({ i := k, up := up } : Told)) := by
        simp [calls]
      rw [this, h2]; simp
    · have : calls i ((j :: l).map fun k => ({ i := k, up := up } : Told)) =
        calls i (l.map fun k => ({ i := k, up := up } : Told)) := by
        simp [calls, hj]
      rw [this, h2]
      have : i ≠ j := fun e => hj e.symm
      simp [this]

/-- what the view of Connect i has to do with the state -/
structure Sees (s : St) (i : Nat) (v : View) : Prop where
  active : v.active = s.active
  line : v.line = s.queue
  here : v.here = true ↔ i ∈ s.reg

/-- what a quiet telling of all registered Connects says to Connect i -/
theorem loop_calls (up : Bool) (beh : Nat → Act) (hq : Quiet beh) (s : St) (made gone : List Nat)
    (inv : Inv s made gone) (i : Nat) (c d : Bool) (fl : flags s i c d) :
    calls i (loop up beh { s with active := up } s.reg).outs =
      if i ∈ s.reg ∧ s.active ≠ up ∧ (if up then c else d) = true then [up] else [] := by
  have h := loop_quiet up beh hq s.reg { s with active := up } inv.nodup
    (fun j hj => by obtain ⟨_, o, h, _⟩ := inv.reg j hj; exact ⟨o, h⟩)
  rw [h.2.2, calls_map _ _ _ (inv.nodup.filter _)]
  by_cases hr : i ∈ s.reg
  · obtain ⟨_, o, ho, hb, hc⟩ := inv.reg i hr
    obtain ⟨hfc, hfd⟩ := fl o ho
    have : i ∈ s.reg.filter (tells { s with active := up } up) ↔ (s.active ≠ up ∧ (if up then c else d) = true) := by
      rw [List.mem_filter]
      simp only [tells, ho, hr, true_and, hc, Obj.wants, hfc, hfd]
      cases s.active <;> cases up <;> cases c <;> cases d <;> simp
    simp only [this, hr, true_and]
  · have : i ∉ s.reg.filter (tells { s with active := up } up) := by
      rw [List.mem_filter]; exact fun h => hr h.1
    simp only [this, hr, if_false, false_and]

/-- a quiet telling keeps the invariant -/
theorem loop_inv (up : Bool) (beh : Nat → Act) (hq : Quiet beh) (s : St) (made gone : List Nat)
    (inv : Inv s made gone) :
    (loop up beh { s with active := up } s.reg).fate = .ok ∧
    Inv (loop up beh { s with active := up } s.reg).st made gone ∧
    (loop up beh { s with active := up } s.reg).st.active = up ∧
    (loop up beh { s with active := up } s.reg).st.queue = s.queue ∧
    (loop up beh { s with active := up } s.reg).st.reg = s.reg ∧
    (∀ i c d, flags s i c d → flags (loop up beh { s with active := up } s.reg).st i c d) := by
  have h := loop_quiet up beh hq s.reg { s with active := up } inv.nodup
    (fun j hj => by obtain ⟨_, o, h, _⟩ := inv.reg j hj; exact ⟨o, h⟩)
  refine ⟨h.1, ?_⟩
  rw [h.2.1]
  refine ⟨⟨inv.lost, inv.nodup, ?_, inv.qnd, ?_, inv.qrem, inv.wait, ?_⟩, rfl, rfl, rfl, ?_⟩
  · intro i hi
    obtain ⟨hm, o, ho, hb, hc⟩ := inv.reg i hi
    refine ⟨hm, { o with connected := up }, ?_, hb, rfl⟩
    have hi' : i ∈ s.reg := hi
    simp [setAll, hi', ho]
  · intro i hi
    obtain ⟨hm, hr, o, ho, hb⟩ := inv.qset i hi
    refine ⟨hm, hr, o, ?_, hb⟩
    have hr' : i ∉ s.reg := hr
    simp [setAll, hr', ho]
  · intro i hi
    obtain ⟨ho, hg⟩ := inv.fresh i hi
    refine ⟨?_, hg⟩
    simp [setAll, ho]
  · intro i c d hf o ho
    by_cases hr : i ∈ s.reg
    · simp only [setAll, hr, if_true] at ho
      cases hs : s.objs i with
      | none => rw [hs] at ho; cases ho
      | some p =>
        rw [hs] at ho
        cases ho
        exact hf p hs
    · simp only [setAll, hr, if_false] at ho
      exact hf o ho

/-- what happened so far with Connect i -/
structure Track (s : St) (i : Nat) (made : List Nat) (c d : Bool) (v : View) (told : List Bool) :
    Prop where
  sees : Sees s i v
  flg : flags s i c d
  told : told = v.seen.filter fun b => if b then c else d
  none : i ∉ made → v.seen = []
  wait : .setup i ∈ s.queue → v.seen = []
  last : i ∈ s.reg → v.seen.getLast? = some s.active
  alt : Alternates v.seen

theorem alt_snoc : ∀ (l : List Bool) (a b : Bool), Alternates l → l.getLast? = some a → a ≠ b →
    Alternates (l ++ [b])
  | [], _, _, _, h, _ => by cases h
  | [x], a, b, _, h, hn => by
    simp at h; subst h; exact ⟨hn, True.intro⟩
  | x :: y :: l, a, b, ha, h, hn =>
    ⟨ha.1, alt_snoc (y :: l) a b ha.2 (by simpa using h) hn⟩

theorem last_snoc (l : List Bool) (b : Bool) : (l ++ [b]).getLast? = some b := by simp

/-- the flags exec() sets for Connect i -/
def nextC (i : Nat) (c : Bool) : Ev → Bool
  | .exec j c' _ _ => c || (j == i && c')
  | _ => c
def nextD (i : Nat) (d : Bool) : Ev → Bool
  | .exec j _ d' _ => d || (j == i && d')
  | _ => d

def nextMade (made : List Nat) : Ev → List Nat
  | .exec j _ _ _ => j :: made
  | _ => made
def nextGone (gone : List Nat) : Ev → List Nat
  | .drop j => j :: gone
  | _ => gone

/-- one step of a fair history -/
def Ok1 (made gone : List Nat) : Ev → Prop
  | .exec i _ _ good => i ∉ made ∧ good = true
  | .drop i => i ∈ made ∧ i ∉ gone
  | .work beh => Quiet beh
  | .up beh beh2 => Quiet beh ∧ Quiet beh2
  | .down beh => Quiet beh
  | .op => True

theorem fair_cons {made gone : List Nat} {e : Ev} {es : List Ev} (h : Fair made gone (e :: es)) :
    Ok1 made gone e ∧ Fair (nextMade made e) (nextGone gone e) es := by
  cases e <;> simp_all [Fair, Ok1, nextMade, nextGone]

theorem app_snoc_split {α : Type} {q a b : List α} {x y : α} (h : q ++ [x] = a ++ y :: b) :
    (b = [] ∧ q = a ∧ x = y) ∨ ∃ b', b = b' ++ [x] ∧ q = a ++ y :: b' := by
  rcases List.eq_nil_or_concat b with hb | ⟨b', z, hb⟩
  · subst hb
    have := List.append_inj' h rfl
    refine .inl ⟨rfl, this.1, ?_⟩
    simpa using this.2
  · subst hb
    have h' : q ++ [x] = (a ++ y :: b') ++ [z] := by simpa using h
    have := List.append_inj' h' rfl
    have hx : x = z := by simpa using this.2
    subst hx
    exact .inr ⟨b', by simp, this.1⟩

/-- the disconnection and connection of a quiet history -/
theorem disconnect_quiet (beh : Nat → Act) (hq : Quiet beh) (s : St) (made gone : List Nat)
    (inv : Inv s made gone) : disconnect s beh = loop false beh { s with active := false } s.reg := by
  have h := (loop_inv false beh hq s made gone inv).1
  unfold disconnect
  simp only [h]

theorem connected_quiet (beh beh2 : Nat → Act) (hq : Quiet beh) (s : St) (made gone : List Nat)
    (inv : Inv s made gone) :
    connected s beh beh2 = loop true beh { s with active := true } s.reg := by
  have h := (loop_inv true beh hq s made gone inv).1
  unfold connected
  rw [if_neg (by rw [inv.lost]; simp)]
  simp only [h]

theorem track_change (up : Bool) (beh : Nat → Act) (hq : Quiet beh) (s : St) (made gone : List Nat)
    (inv : Inv s made gone) (i : Nat) (c d : Bool) (v : View) (told : List Bool)
    (t : Track s i made c d v told) (v' : View)
    (hv : v' = if v.active = up then v else
      { v with active := up, seen := if v.here then v.seen ++ [up] else v.seen }) :
    Track (loop up beh { s with active := up } s.reg).st i made c d v'
      (told ++ calls i (loop up beh { s with active := up } s.reg).outs) := by
  obtain ⟨_, inv', ha, hqu, hr, hf⟩ := loop_inv up beh hq s made gone inv
  have hc := loop_calls up beh hq s made gone inv i c d t.flg
  generalize hL : loop up beh { s with active := up } s.reg = L at *
  have hact := t.sees.active
  by_cases hs : s.active = up
  · have hv' : v' = v := by rw [hv, hact, if_pos hs]
    subst hv'
    have : ¬ (i ∈ s.reg ∧ s.active ≠ up ∧ (if up = true then c else d) = true) :=
      fun h => h.2.1 hs
    rw [if_neg this] at hc
    rw [hc, List.append_nil]
    refine ⟨⟨?_, ?_, ?_⟩, hf i c d t.flg, t.told, t.none, ?_, ?_, t.alt⟩
    · rw [ha, hact, hs]
    · rw [hqu, t.sees.line]
    · rw [hr]; exact t.sees.here
    · rw [hqu]; exact t.wait
    · rw [hr, ha, ← hs]; exact t.last
  · have hv' : v' = { v with active := up, seen := if v.here then v.seen ++ [up] else v.seen } := by
      rw [hv, hact, if_neg hs]
    subst hv'
    by_cases hi : i ∈ s.reg
    · have hh : v.here = true := t.sees.here.mpr hi
      simp only [hh, if_true]
      refine ⟨⟨ha.symm, ?_, ?_⟩, hf i c d t.flg, ?_, ?_, ?_, ?_, ?_⟩
      · rw [hqu]; exact t.sees.line
      · rw [hr]; exact ⟨fun _ => hi, fun _ => rfl⟩
      · rw [List.filter_append, ← t.told, hc]
        have hs' : s.active ≠ up := hs
        by_cases hw : (if up = true then c else d) = true
        · rw [if_pos ⟨hi, hs', hw⟩]
          simp [hw]
        · rw [if_neg (fun h => hw h.2.2)]
          simp [hw]
      · intro hm; exact absurd (inv.reg i hi).1 hm
      · intro hq'; rw [hqu] at hq'; exact absurd hi (inv.qset i hq').2.1
      · intro _; rw [ha]; exact last_snoc _ _
      · exact alt_snoc _ _ _ t.alt (t.last hi) hs
    · have hh : v.here = false := by
        cases h : v.here
        · rfl
        · exact absurd (t.sees.here.mp h) hi
      simp only [hh]
      have : ¬ (i ∈ s.reg ∧ s.active ≠ up ∧ (if up = true then c else d) = true) :=
        fun h => hi h.1
      rw [if_neg this] at hc
      rw [hc, List.append_nil]
      refine ⟨⟨ha.symm, ?_, ?_⟩, hf i c d t.flg, t.told, t.none, ?_, ?_, t.alt⟩
      · rw [hqu]; exact t.sees.line
      · rw [hr, ← t.sees.here, hh]
      · rw [hqu]; exact t.wait
      · intro h; rw [hr] at h; exact absurd h hi

theorem setup_quiet (s : St) (i : Nat) (beh : Nat → Act) (o : Obj) (ho : s.objs i = some o)
    (hg : o.good = true) (hb : beh i = .ok) :
    setup s i beh =
    { fate := .ok,
      st := setObj { s with reg := s.reg ++ [i] } i (some { o with built := true, connected := s.active }),
      outs := if o.wants s.active then [{ i := i, up := s.active }] else [] } := by
  unfold setup
  simp only [ho, hg, if_true, hb, act]
  by_cases hw : o.wants s.active = true
  · simp [hw, setObj, hg]
  · simp [hw, setObj, hg]

theorem drop_built (s : St) (i : Nat) (o : Obj) (ho : s.objs i = some o) (hb : o.built = true) :
    drop s i = (.ok, setObj { s with reg := s.reg.filter (· != i) } i none) := by
  unfold drop
  simp only [ho, hb, if_true]

theorem step_inv (s : St) (made gone : List Nat) (e : Ev) (inv : Inv s made gone)
    (h1 : Ok1 made gone e) :
    (step s e).fate = .ok ∧ Inv (step s e).st (nextMade made e) (nextGone gone e) := by
  cases e with
  | exec i c d g =>
    obtain ⟨hm, hg⟩ := h1
    refine ⟨rfl, ?_⟩
    have hnr : i ∉ s.reg := fun h => hm (inv.reg i h).1
    have hnq : Work.setup i ∉ s.queue := fun h => hm (inv.qset i h).1
    refine ⟨inv.lost, inv.nodup, ?_, ?_, ?_, ?_, ?_, ?_⟩
    · intro j hj
      have hj' : j ∈ s.reg := hj
      obtain ⟨hmj, o, ho, hr⟩ := inv.reg j hj'
      have hne : j ≠ i := fun e => hnr (e ▸ hj')
      exact ⟨List.mem_cons_of_mem _ hmj, o, by simp [step, setObj, hne, ho], hr⟩
    · show (s.queue ++ [Work.setup i]).Nodup
      rw [List.nodup_append]
      refine ⟨inv.qnd, by simp, ?_⟩
      intro a ha b hb e
      simp at hb; subst hb; subst e
      exact hnq ha
    · intro j hj
      have hj' : Work.setup j ∈ s.queue ++ [Work.setup i] := hj
      rw [List.mem_append] at hj'
      rcases hj' with hj' | hj'
      · obtain ⟨hmj, hrj, o, ho, hb⟩ := inv.qset j hj'
        have hne : j ≠ i := fun e => hnq (e ▸ hj')
        exact ⟨List.mem_cons_of_mem _ hmj, hrj, o, by simp [step, setObj, hne, ho], hb⟩
      · simp at hj'; subst hj'
        exact ⟨List.mem_cons_self .., hnr, ⟨c, d, g, false, false⟩, by simp [step, setObj], rfl, hg⟩
    · intro a b j hj
      have hj' : s.queue ++ [Work.setup i] = a ++ .remove j :: b := hj
      rcases app_snoc_split hj' with ⟨_, _, h⟩ | ⟨b', _, h⟩
      · cases h
      · exact inv.qrem a b' j h
    · intro j hj hg'
      have hj' : j ∈ i :: made := hj
      rw [List.mem_cons] at hj'
      rcases hj' with rfl | hj'
      · exact .inr (by show Work.setup j ∈ s.queue ++ [Work.setup j]; simp)
      · rcases inv.wait j hj' hg' with h | h
        · exact .inl h
        · exact .inr (by show Work.setup j ∈ s.queue ++ [Work.setup i]; simp [h])
    · intro j hj
      have hj' : j ∉ i :: made := hj
      rw [List.mem_cons, not_or] at hj'
      obtain ⟨ho, hgn⟩ := inv.fresh j hj'.2
      exact ⟨by simp [step, setObj, hj'.1, ho], hgn⟩
  | drop i =>
    obtain ⟨hm, hg⟩ := h1
    refine ⟨rfl, inv.lost, inv.nodup, inv.reg, ?_, ?_, ?_, ?_, ?_⟩
    · show (s.queue ++ [Work.remove i]).Nodup
      rw [List.nodup_append]
      refine ⟨inv.qnd, by simp, ?_⟩
      intro a ha b hb e
      simp at hb; subst hb; subst e
      obtain ⟨p, q, hpq⟩ := List.append_of_mem ha
      exact hg (inv.qrem p q i hpq).1
    · intro j hj
      have hj' : Work.setup j ∈ s.queue ++ [Work.remove i] := hj
      simp at hj'
      exact inv.qset j hj'
    · intro a b j hj
      have hj' : s.queue ++ [Work.remove i] = a ++ .remove j :: b := hj
      rcases app_snoc_split hj' with ⟨_, h2, h⟩ | ⟨b', _, h⟩
      · cases h
        refine ⟨List.mem_cons_self .., ?_⟩
        rw [← h2]
        exact inv.wait i hm hg
      · exact ⟨List.mem_cons_of_mem _ (inv.qrem a b' j h).1, (inv.qrem a b' j h).2⟩
    · intro j hj hg'
      have hg'' : j ∉ i :: gone := hg'
      rw [List.mem_cons, not_or] at hg''
      rcases inv.wait j hj hg''.2 with h | h
      · exact .inl h
      · exact .inr (by show Work.setup j ∈ s.queue ++ [Work.remove i]; simp [h])
    · intro j hj
      obtain ⟨ho, hgn⟩ := inv.fresh j hj
      refine ⟨ho, ?_⟩
      show j ∉ i :: gone
      rw [List.mem_cons, not_or]
      exact ⟨fun e => hj (by show j ∈ made; rw [e]; exact hm), hgn⟩
  | up beh beh2 =>
    have h := connected_quiet beh beh2 h1.1 s made gone inv
    have hl := loop_inv true beh h1.1 s made gone inv
    exact ⟨by show (connected s beh beh2).fate = _; rw [h]; exact hl.1,
      by show Inv (connected s beh beh2).st made gone; rw [h]; exact hl.2.1⟩
  | down beh =>
    have h := disconnect_quiet beh h1 s made gone inv
    have hl := loop_inv false beh h1 s made gone inv
    exact ⟨by show (disconnect s beh).fate = _; rw [h]; exact hl.1,
      by show Inv (disconnect s beh).st made gone; rw [h]; exact hl.2.1⟩
  | op => exact ⟨rfl, inv.lost, inv.nodup, inv.reg, inv.qnd, inv.qset, inv.qrem, inv.wait, inv.fresh⟩
  | work beh =>
    show (doWork s beh).fate = .ok ∧ Inv (doWork s beh).st made gone
    cases hq : s.queue with
    | nil =>
      have : doWork s beh = { fate := .ok, st := s, outs := [] } := by simp only [doWork, hq]
      rw [this]; exact ⟨rfl, inv⟩
    | cons w q =>
      have hnd := inv.qnd
      rw [hq, List.nodup_cons] at hnd
      cases w with
      | setup i =>
        obtain ⟨hm, hr, o, ho, hb, hg⟩ := inv.qset i (by rw [hq]; exact List.mem_cons_self ..)
        have key : (doWork s beh).fate = .ok ∧ (doWork s beh).st =
            setObj { s with queue := q, reg := s.reg ++ [i] } i
              (some { o with built := true, connected := s.active }) := by
          have hbi : beh i = .ok := h1 i
          simp only [doWork, hq]
          rw [setup_quiet { s with queue := q } i beh o ho hg hbi]
          exact ⟨rfl, rfl⟩
        refine ⟨key.1, ?_⟩
        rw [key.2]
        refine ⟨inv.lost, ?_, ?_, hnd.2, ?_, ?_, ?_, ?_⟩
        · show (s.reg ++ [i]).Nodup
          rw [List.nodup_append]
          refine ⟨inv.nodup, by simp, ?_⟩
          intro a ha b hb' e
          simp at hb'; subst hb'; subst e; exact hr ha
        · intro j hj
          have hj' : j ∈ s.reg ++ [i] := hj
          by_cases hji : j = i
          · subst hji
            exact ⟨hm, { o with built := true, connected := s.active }, by simp [setObj], rfl, rfl⟩
          · have : j ∈ s.reg := by simpa [hji] using hj'
            obtain ⟨hmj, p, hp, hr⟩ := inv.reg j this
            exact ⟨hmj, p, by simp [setObj, hji, hp], hr⟩
        · intro j hj
          have hj' : Work.setup j ∈ q := hj
          have hji : j ≠ i := fun e => hnd.1 (e ▸ hj')
          obtain ⟨hmj, hrj, p, hp, hb'⟩ := inv.qset j (by rw [hq]; exact List.mem_cons_of_mem _ hj')
          refine ⟨hmj, ?_, p, by simp [setObj, hji, hp], hb'⟩
          show j ∉ s.reg ++ [i]
          simp [hrj, hji]
        · intro a b j hj
          have hj' : q = a ++ .remove j :: b := hj
          obtain ⟨hgn, h⟩ := inv.qrem (Work.setup i :: a) b j (by rw [hq, hj']; rfl)
          refine ⟨hgn, ?_⟩
          show j ∈ s.reg ++ [i] ∨ _
          rcases h with h | h
          · exact .inl (by simp [h])
          · rw [List.mem_cons] at h
            rcases h with h | h
            · cases h; exact .inl (by simp)
            · exact .inr h
        · intro j hj hgj
          show j ∈ s.reg ++ [i] ∨ Work.setup j ∈ q
          rcases inv.wait j hj hgj with h | h
          · exact .inl (by simp [h])
          · rw [hq, List.mem_cons] at h
            rcases h with h | h
            · cases h; exact .inl (by simp)
            · exact .inr h
        · intro j hj
          obtain ⟨hoj, hgj⟩ := inv.fresh j hj
          have hji : j ≠ i := fun e => hj (e ▸ hm)
          exact ⟨by simp [setObj, hji, hoj], hgj⟩
      | remove i =>
        obtain ⟨hgi, hor⟩ := inv.qrem [] q i (by rw [hq]; rfl)
        have hr : i ∈ s.reg := by
          rcases hor with h | h
          · exact h
          · cases h
        obtain ⟨hm, o, ho, hb, _⟩ := inv.reg i hr
        have key : (doWork s beh).fate = .ok ∧ (doWork s beh).st =
            setObj { s with queue := q, reg := s.reg.filter (· != i) } i none := by
          simp only [doWork, hq]
          rw [drop_built { s with queue := q } i o ho hb]
          exact ⟨rfl, rfl⟩
        refine ⟨key.1, ?_⟩
        rw [key.2]
        refine ⟨inv.lost, inv.nodup.filter _, ?_, hnd.2, ?_, ?_, ?_, ?_⟩
        · intro j hj
          have hj' : j ∈ s.reg.filter (· != i) := hj
          rw [List.mem_filter] at hj'
          have hji : j ≠ i := by simpa using hj'.2
          obtain ⟨hmj, p, hp, hr⟩ := inv.reg j hj'.1
          exact ⟨hmj, p, by simp [setObj, hji, hp], hr⟩
        · intro j hj
          have hj' : Work.setup j ∈ q := hj
          obtain ⟨hmj, hrj, p, hp, hb'⟩ := inv.qset j (by rw [hq]; exact List.mem_cons_of_mem _ hj')
          have hji : j ≠ i := fun e => hrj (e ▸ hr)
          refine ⟨hmj, ?_, p, by simp [setObj, hji, hp], hb'⟩
          show j ∉ s.reg.filter (· != i)
          rw [List.mem_filter]
          exact fun h => hrj h.1
        · intro a b j hj
          have hj' : q = a ++ .remove j :: b := hj
          obtain ⟨hgn, h⟩ := inv.qrem (Work.remove i :: a) b j (by rw [hq, hj']; rfl)
          refine ⟨hgn, ?_⟩
          have hji : j ≠ i := by
            intro e
            subst e
            exact hnd.1 (by rw [hj']; simp)
          show j ∈ s.reg.filter (· != i) ∨ _
          rcases h with h | h
          · exact .inl (by rw [List.mem_filter]; exact ⟨h, by simpa using hji⟩)
          · rw [List.mem_cons] at h
            rcases h with h | h
            · cases h
            · exact .inr h
        · intro j hj hgj
          have hji : j ≠ i := fun e => hgj (e ▸ hgi)
          show j ∈ s.reg.filter (· != i) ∨ Work.setup j ∈ q
          rcases inv.wait j hj hgj with h | h
          · exact .inl (by rw [List.mem_filter]; exact ⟨h, by simpa using hji⟩)
          · rw [hq, List.mem_cons] at h
            rcases h with h | h
            · cases h
            · exact .inr h
        · intro j hj
          obtain ⟨hoj, hgj⟩ := inv.fresh j hj
          have hji : j ≠ i := fun e => hj (e ▸ hm)
          exact ⟨by simp [setObj, hji, hoj], hgj⟩

theorem step_track (s : St) (made gone : List Nat) (e : Ev) (inv : Inv s made gone)
    (h1 : Ok1 made gone e) (i : Nat) (c d : Bool) (v : View) (told : List Bool)
    (hcd : i ∉ made → c = false ∧ d = false)
    (t : Track s i made c d v told) :
    Track (step s e).st i (nextMade made e) (nextC i c e) (nextD i d e) (look i v e)
      (told ++ calls i (step s e).outs) := by
  have hact := t.sees.active
  have hline := t.sees.line
  have nil : calls i [] = [] := rfl
  cases e with
  | exec j c' d' g =>
    obtain ⟨hm, hg⟩ := h1
    have hnr : j ∉ s.reg := fun h => hm (inv.reg j h).1
    show Track _ i (j :: made) (c || (j == i && c')) (d || (j == i && d')) _ (told ++ calls i [])
    rw [nil, List.append_nil]
    by_cases hji : j = i
    · subst hji
      obtain ⟨rfl, rfl⟩ := hcd hm
      have hseen := t.none hm
      refine ⟨⟨hact, ?_, t.sees.here⟩, ?_, ?_, fun _ => hseen, fun _ => hseen, t.last, t.alt⟩
      · show v.line ++ [Work.setup j] = s.queue ++ [Work.setup j]
        rw [hline]
      · intro o ho
        simp [step, setObj] at ho
        subst ho
        simp
      · show told = v.seen.filter _
        rw [t.told, hseen]; rfl
    · have hb : (j == i) = false := by simpa using hji
      simp only [hb, Bool.false_and, Bool.or_false]
      refine ⟨⟨hact, ?_, t.sees.here⟩, ?_, t.told, ?_, ?_, t.last, t.alt⟩
      · show v.line ++ [Work.setup j] = s.queue ++ [Work.setup j]
        rw [hline]
      · intro o ho
        have hij : i ≠ j := fun e => hji e.symm
        simp [step, setObj, hij] at ho
        exact t.flg o ho
      · intro h
        exact t.none fun h' => h (List.mem_cons_of_mem _ h')
      · intro h
        have h' : Work.setup i ∈ s.queue ++ [Work.setup j] := h
        have hij : i ≠ j := fun e => hji e.symm
        simp [hij] at h'
        exact t.wait h'
  | drop j =>
    show Track _ i made c d _ (told ++ calls i [])
    rw [nil, List.append_nil]
    refine ⟨⟨hact, ?_, t.sees.here⟩, t.flg, t.told, t.none, ?_, t.last, t.alt⟩
    · show v.line ++ [Work.remove j] = s.queue ++ [Work.remove j]
      rw [hline]
    · intro h
      have h' : Work.setup i ∈ s.queue ++ [Work.remove j] := h
      simp at h'
      exact t.wait h'
  | up beh beh2 =>
    show Track (connected s beh beh2).st i made c d _ (told ++ calls i (connected s beh beh2).outs)
    rw [connected_quiet beh beh2 h1.1 s made gone inv]
    apply track_change true beh h1.1 s made gone inv i c d v told t
    rfl
  | down beh =>
    show Track (disconnect s beh).st i made c d _ (told ++ calls i (disconnect s beh).outs)
    rw [disconnect_quiet beh h1 s made gone inv]
    apply track_change false beh h1 s made gone inv i c d v told t
    simp only [look]
    cases v.active <;> simp
  | op =>
    show Track _ i made c d v (told ++ calls i [])
    rw [nil, List.append_nil]
    exact ⟨⟨hact, hline, t.sees.here⟩, t.flg, t.told, t.none, t.wait, t.last, t.alt⟩
  | work beh =>
    show Track (doWork s beh).st i made c d _ (told ++ calls i (doWork s beh).outs)
    cases hq : s.queue with
    | nil =>
      simp only [doWork, hq, look, hline]
      rw [nil, List.append_nil]
      exact t
    | cons w q =>
      have hnd := inv.qnd
      rw [hq, List.nodup_cons] at hnd
      cases w with
      | setup j =>
        obtain ⟨hm, hr, o, ho, hb, hg⟩ := inv.qset j (by rw [hq]; exact List.mem_cons_self ..)
        have key : doWork s beh =
          { fate := .ok,
            st := setObj { s with queue := q, reg := s.reg ++ [j] } j (some { o with built := true, connected := s.active }),
            outs := if o.wants s.active then [{ i := j, up := s.active }] else [] } := by
          simp only [doWork, hq]
          rw [setup_quiet { s with queue := q } j beh o ho hg (h1 j)]
        rw [key]
        by_cases hji : j = i
        · subst hji
          have hseen := t.wait (by rw [hq]; exact List.mem_cons_self ..)
          have hl : look j v (.work beh) =
              { v with line := q, here := true, seen := v.seen ++ [v.active] } := by
            simp [look, hline, hq]
          rw [hl, hseen]
          obtain ⟨hc, hd⟩ := t.flg o ho
          have ht : told = [] := by rw [t.told, hseen]; rfl
          refine ⟨⟨hact, rfl, ?_⟩, ?_, ?_, ?_, ?_, ?_, ?_⟩
          · show true = true ↔ j ∈ s.reg ++ [j]
            simp
          · intro p hp
            simp [setObj] at hp
            subst hp
            exact ⟨hc, hd⟩
          · rw [ht, hact]
            simp only [Obj.wants, hc, hd]
            cases s.active <;> cases c <;> cases d <;> simp [calls]
          · intro h; exact absurd hm h
          · intro h; exact absurd h hnd.1
          · intro _; rw [hact]; rfl
          · exact True.intro
        · have hl : look i v (.work beh) = { v with line := q } := by
            simp [look, hline, hq, hji]
          rw [hl]
          have hij : i ≠ j := fun e => hji e.symm
          have hcl : calls i (if o.wants s.active then [({ i := j, up := s.active } : Told)] else []) = [] := by
            split <;> simp [calls, hji]
          simp only [hcl, List.append_nil]
          refine ⟨⟨hact, rfl, ?_⟩, ?_, t.told, t.none, ?_, ?_, t.alt⟩
          · show v.here = true ↔ i ∈ s.reg ++ [j]
            simp [hij, t.sees.here]
          · intro p hp
            simp [setObj, hij] at hp
            exact t.flg p hp
          · intro h
            exact t.wait (by rw [hq]; exact List.mem_cons_of_mem _ h)
          · intro h
            have h' : i ∈ s.reg ++ [j] := h
            simp [hij] at h'
            exact t.last h'
      | remove j =>
        obtain ⟨hgi, hor⟩ := inv.qrem [] q j (by rw [hq]; rfl)
        have hr : j ∈ s.reg := by
          rcases hor with h | h
          · exact h
          · cases h
        obtain ⟨hm, o, ho, hb, _⟩ := inv.reg j hr
        have key : doWork s beh =
          { fate := .ok, outs := [],
            st := setObj { s with queue := q, reg := s.reg.filter (· != j) } j none } := by
          simp only [doWork, hq]
          rw [drop_built { s with queue := q } j o ho hb]
        rw [key]
        simp only [nil, List.append_nil]
        by_cases hji : j = i
        · subst hji
          have hl : look j v (.work beh) = { v with line := q, here := false } := by
            simp [look, hline, hq]
          rw [hl]
          refine ⟨⟨hact, rfl, ?_⟩, ?_, t.told, t.none, ?_, ?_, t.alt⟩
          · show false = true ↔ j ∈ s.reg.filter (· != j)
            simp
          · intro p hp
            simp [setObj] at hp
          · intro h
            exact t.wait (by rw [hq]; exact List.mem_cons_of_mem _ h)
          · intro h
            have h' : j ∈ s.reg.filter (· != j) := h
            simp at h'
        · have hl : look i v (.work beh) = { v with line := q } := by
            simp [look, hline, hq, hji]
          rw [hl]
          have hij : i ≠ j := fun e => hji e.symm
          refine ⟨⟨hact, rfl, ?_⟩, ?_, t.told, t.none, ?_, ?_, t.alt⟩
          · show v.here = true ↔ i ∈ s.reg.filter (· != j)
            simp [hij, t.sees.here]
          · intro p hp
            simp [setObj, hij] at hp
            exact t.flg p hp
          · intro h
            exact t.wait (by rw [hq]; exact List.mem_cons_of_mem _ h)
          · intro h
            have h' : i ∈ s.reg.filter (· != j) := h
            rw [List.mem_filter] at h'
            exact t.last h'.1

/-- a fair history never fails, and keeps track of every Connect -/
theorem run_track (es : List Ev) : ∀ (s : St) (made gone : List Nat), Inv s made gone →
    Fair made gone es →
    (run s es).fate = .ok ∧
    (∃ made' gone', Inv (run s es).st made' gone') ∧
    ∀ (i : Nat) (c d : Bool) (v : View) (told : List Bool),
      (i ∉ made → c = false ∧ d = false) → Track s i made c d v told →
      ∃ made', Track (run s es).st i made' (es.foldl (nextC i) c) (es.foldl (nextD i) d)
        (es.foldl (look i) v) (told ++ calls i (run s es).outs) := by
  induction es with
  | nil =>
    intro s made gone inv _
    refine ⟨rfl, ⟨made, gone, inv⟩, ?_⟩
    intro i c d v told _ t
    refine ⟨made, ?_⟩
    show Track s i made c d v (told ++ calls i [])
    have : calls i [] = [] := rfl
    rw [this, List.append_nil]
    exact t
  | cons e es ih =>
    intro s made gone inv hf
    obtain ⟨h1, h2⟩ := fair_cons hf
    obtain ⟨hfate, inv'⟩ := step_inv s made gone e inv h1
    obtain ⟨r1, r2, r3⟩ := ih _ _ _ inv' h2
    have hrun : run s (e :: es) = { run (step s e).st es with
        outs := (step s e).outs ++ (run (step s e).st es).outs } := by
      simp only [run, hfate, if_true]
    rw [hrun]
    refine ⟨r1, r2, ?_⟩
    intro i c d v told hcd t
    have t' := step_track s made gone e inv h1 i c d v told hcd t
    obtain ⟨made', t''⟩ := r3 i _ _ _ _ (by
      intro hm
      cases e with
      | exec j c' d' g =>
        have hm' : i ∉ j :: made := hm
        rw [List.mem_cons, not_or] at hm'
        obtain ⟨rfl, rfl⟩ := hcd hm'.2
        have : (j == i) = false := by simpa using fun e => hm'.1 e.symm
        simp [nextC, nextD, this]
      | _ => exact hcd hm) t'
    refine ⟨made', ?_⟩
    rw [calls_append, ← List.append_assoc]
    exact t''

theorem start_inv : Inv {} [] [] := by
  constructor <;> intros <;> simp_all

theorem foldC (i : Nat) (es : List Ev) : ∀ c, es.foldl (nextC i) c = (c || hasC i es) := by
  induction es with
  | nil => intro c; simp [hasC]
  | cons e es ih =>
    intro c
    rw [List.foldl_cons, ih]
    cases e <;> simp [nextC, hasC, Bool.or_assoc]

theorem foldD (i : Nat) (es : List Ev) : ∀ d, es.foldl (nextD i) d = (d || hasD i es) := by
  induction es with
  | nil => intro d; simp [hasD]
  | cons e es ih =>
    intro d
    rw [List.foldl_cons, ih]
    cases e <;> simp [nextD, hasD, Bool.or_assoc]

/-- all of it, for a history from the start -/
theorem whole (es : List Ev) (hf : Fair [] [] es) (i : Nat) :
    (run {} es).fate = .ok ∧
    ∃ made, Track (run {} es).st i made (hasC i es) (hasD i es) (view i es)
      (calls i (run {} es).outs) := by
  obtain ⟨h1, _, h3⟩ := run_track es {} [] [] start_inv hf
  refine ⟨h1, ?_⟩
  obtain ⟨made, t⟩ := h3 i false false {} [] (fun _ => ⟨rfl, rfl⟩)
    ⟨⟨rfl, rfl, by simp⟩, by intro o ho; simp at ho, rfl, fun _ => rfl, fun _ => rfl, by simp,
      True.intro⟩
  rw [foldC, foldD] at t
  refine ⟨made, ?_⟩
  simpa [view] using t

/-! ### the theorems -/

/-- a history: Connect 1 with both callbacks, Connect 2 with onDisconnect only, then up, down,
Connect 1 released, up, down -/
def exHist : List Ev :=
  let b : Nat → Act := fun _ => .ok
  [.exec 1 true true true, .work b, .up b b, .exec 2 false true true, .down b, .work b,
   .drop 1, .up b b, .work b, .down b]

example : Fair [] [] exHist := by simp [exHist, Fair, Quiet]
example : calls 1 (run {} exHist).outs = [false, true, false, true] := by decide
example : calls 2 (run {} exHist).outs = [false, false] := by decide
example : (view 2 exHist).seen = [false, true, false] := by decide

/-- C85. The callbacks of a Connect tell exactly what there is to tell: first the state of
the channel found when the Connect is put in place, then each change, in order, until
it is released; nothing is told twice, nothing is left out, and nothing fails. A change for
which no callback was given is not told. -/
theorem C85_told_partial (es : List Ev) (hf : Fair [] [] es) (i : Nat) :
    (run {} es).fate = .ok ∧
    calls i (run {} es).outs =
      (view i es).seen.filter fun up => if up then hasC i es else hasD i es :=
  ⟨(whole es hf i).1, (whole es hf i).2.choose_spec.told⟩

/-- With both callbacks, onConnect and onDisconnect are called in turn. -/
theorem C85_alternate_partial (es : List Ev) (hf : Fair [] [] es) (i : Nat)
    (hc : hasC i es = true) (hd : hasD i es = true) :
    Alternates (calls i (run {} es).outs) := by
  obtain ⟨_, made, t⟩ := whole es hf i
  rw [t.told, hc, hd]
  have : ((view i es).seen.filter fun b => if b = true then true else true) = (view i es).seen := by
    apply List.filter_eq_self.mpr
    intro a _; cases a <;> rfl
  rw [this]
  exact t.alt

example : hasC 1 exHist = true ∧ hasD 1 exHist = true := by decide

/-- connected() of a Connect in place is the state of the channel, which is also the
last thing the Connect has seen. -/
theorem C85_poll_partial (es : List Ev) (hf : Fair [] [] es) (i : Nat)
    (hh : (view i es).here = true) :
    poll (run {} es).st i = some (view i es).active ∧
    (view i es).seen.getLast? = some (view i es).active := by
  obtain ⟨_, ⟨made', gone', inv⟩, _⟩ := run_track es {} [] [] start_inv hf
  obtain ⟨_, made, t⟩ := whole es hf i
  have hr := t.sees.here.mp hh
  obtain ⟨_, o, ho, _, hc⟩ := inv.reg i hr
  rw [t.sees.active]
  refine ⟨?_, t.last hr⟩
  simp [poll, ho, hc]

example : (view 2 exHist).here = true ∧ poll (run {} exHist).st 2 = some false := by decide

/-- Once the worker has released a Connect, nothing more is told to it. -/
theorem C85_gone_partial (es more : List Ev) (hf : Fair [] [] (es ++ more)) (i : Nat)
    (hset : (view i es).here = false) (hgone : ∀ w, w ∈ (view i es).line → w ≠ .setup i)
    (hno : ∀ c d g, Ev.exec i c d g ∉ more) :
    calls i (run {} (es ++ more)).outs = calls i (run {} es).outs := by
  have key : ∀ (more : List Ev) (v : View), v.here = false → (∀ w, w ∈ v.line → w ≠ .setup i) →
      (∀ c d g, Ev.exec i c d g ∉ more) → (more.foldl (look i) v).seen = v.seen := by
    intro more
    induction more with
    | nil => intro v _ _ _; rfl
    | cons e more ih =>
      intro v hh hl hno
      have hno' : ∀ c d g, Ev.exec i c d g ∉ more :=
        fun c d g h => hno c d g (List.mem_cons_of_mem _ h)
      rw [List.foldl_cons]
      cases e with
      | exec j c d g =>
        have hji : j ≠ i := fun e => hno c d g (by rw [e]; exact List.mem_cons_self ..)
        refine ih { v with line := v.line ++ [Work.setup j] } hh ?_ hno'
        · intro w hw
          have hw' : w ∈ v.line ++ [Work.setup j] := hw
          rw [List.mem_append] at hw'
          rcases hw' with h | h
          · exact hl w h
          · simp at h; subst h; simp [hji]
      | drop j =>
        refine ih { v with line := v.line ++ [Work.remove j] } hh ?_ hno'
        · intro w hw
          have hw' : w ∈ v.line ++ [Work.remove j] := hw
          rw [List.mem_append] at hw'
          rcases hw' with h | h
          · exact hl w h
          · simp at h; subst h; simp
      | work beh =>
        cases hv : v.line with
        | nil =>
          have : look i v (.work beh) = v := by simp [look, hv]
          rw [this]; exact ih v hh hl hno'
        | cons w l =>
          have hl' : ∀ w, w ∈ l → w ≠ .setup i :=
            fun w h => hl w (by rw [hv]; exact List.mem_cons_of_mem _ h)
          cases w with
          | setup j =>
            have hji : j ≠ i := fun e => hl (.setup j) (by rw [hv]; exact List.mem_cons_self ..) (by rw [e])
            have : look i v (.work beh) = { v with line := l } := by simp [look, hv, hji]
            rw [this]; exact ih { v with line := l } hh hl' hno'
          | remove j =>
            by_cases hji : j = i
            · have : look i v (.work beh) = { v with line := l, here := false } := by
                simp [look, hv, hji]
              rw [this]; exact ih { v with line := l, here := false } rfl hl' hno'
            · have : look i v (.work beh) = { v with line := l } := by simp [look, hv, hji]
              rw [this]; exact ih { v with line := l } hh hl' hno'
      | up b b2 =>
        by_cases ha : v.active = true
        · have : look i v (.up b b2) = v := by simp [look, ha]
          rw [this]; exact ih v hh hl hno'
        · have : look i v (.up b b2) = { v with active := true } := by simp [look, ha, hh]
          rw [this]; exact ih { v with active := true } hh hl hno'
      | down b =>
        by_cases ha : v.active = true
        · have : look i v (.down b) = { v with active := false } := by simp [look, ha, hh]
          rw [this]; exact ih { v with active := false } hh hl hno'
        · have : look i v (.down b) = v := by simp [look, ha]
          rw [this]; exact ih v hh hl hno'
      | op => exact ih v hh hl hno'
  have fair_left : ∀ (es : List Ev) (m g : List Nat), Fair m g (es ++ more) → Fair m g es := by
    intro es
    induction es with
    | nil => intros; exact True.intro
    | cons e es ih =>
      intro m g h
      cases e
      · exact ⟨h.1, h.2.1, ih _ _ h.2.2⟩
      · exact ⟨h.1, h.2.1, ih _ _ h.2.2⟩
      · exact ⟨h.1, ih _ _ h.2⟩
      · exact ⟨h.1, h.2.1, ih _ _ h.2.2⟩
      · exact ⟨h.1, ih _ _ h.2⟩
      · exact ih _ _ h
  have hseen : (view i (es ++ more)).seen = (view i es).seen := by
    rw [view, List.foldl_append]
    exact key more _ hset hgone hno
  have hc : hasC i (es ++ more) = hasC i es := by
    have app : hasC i (es ++ more) = (hasC i es || hasC i more) := by simp [hasC]
    rw [app]
    have : hasC i more = false := by
      rw [hasC, List.any_eq_false]
      intro e he
      cases e with
      | exec j c d g =>
        have : j ≠ i := fun h => hno c d g (h ▸ he)
        simp [this]
      | _ => simp
    rw [this, Bool.or_false]
  have hd : hasD i (es ++ more) = hasD i es := by
    have app : hasD i (es ++ more) = (hasD i es || hasD i more) := by simp [hasD]
    rw [app]
    have : hasD i more = false := by
      rw [hasD, List.any_eq_false]
      intro e he
      cases e with
      | exec j c d g =>
        have : j ≠ i := fun h => hno c d g (h ▸ he)
        simp [this]
      | _ => simp
    rw [this, Bool.or_false]
  rw [(C85_told_partial _ hf i).2, (C85_told_partial es (fair_left es [] [] hf) i).2, hseen, hc, hd]

/-- the hypotheses of `C85_gone_partial` hold of Connect 1 after all but the last event -/
example : (view 1 exHist.dropLast).here = false ∧ (view 1 exHist.dropLast).line = [] ∧
    exHist.dropLast ++ [.down fun _ => .ok] = exHist := ⟨by decide, by decide, rfl⟩

/-- callbacks which all do nothing -/
abbrev still : Nat → Act := fun _ => .ok
/-- callbacks of Connect 1 which do `a` -/
abbrev one (a : Act) : Nat → Act := fun i => if i = 1 then a else .ok

/-- The code breaks C85 when the channel cannot be made (an invalid `.server()`, or the Context
is closed): no callback is ever called, exec() does not throw, and releasing the Connect aborts
the process. -/
theorem C85_bad_server (c d : Bool) (b1 b2 : Nat → Act) :
    (run {} [.exec 1 c d false, .work b1]).fate = .ok ∧
    (run {} [.exec 1 c d false, .work b1]).outs = [] ∧
    (run {} [.exec 1 c d false, .work b1, .drop 1, .work b2]).fate = .abort := by
  simp [run, step, doWork, setup, setObj, drop]

/-- The code breaks C85 when a callback releases another Connect of the same channel: the
Connect is freed and then looked at. -/
theorem C85_drop_other :
    (run {} [.exec 1 true true true, .exec 2 true true true, .work still, .work still,
      .up still still, .down (one (.drops [2]))]).fate = .freed ∧
    (run {} [.exec 1 true true true, .exec 2 true true true, .work still, .work still,
      .up (one (.drops [2])) still]).fate = .freed := by decide

/-- The code breaks C85 when the first callback of a Connect releases it: it is put in the list
after having been freed, and looked at when the channel connects. -/
theorem C85_drop_first :
    (run {} [.exec 1 true true true, .work (one (.drops [1]))]).fate = .ok ∧
    (run {} [.exec 1 true true true, .work (one (.drops [1])), .up still still]).fate = .freed := by
  decide

/-- The code breaks C85 when a callback releases a Connect whose exec() the worker has not yet
come to, for one made in the same callback: the process is aborted. From another thread the
order of the queue prevents this (`C85_told_partial`). -/
theorem C85_drop_new :
    (run {} [.exec 1 true true true, .work still, .exec 2 true true true,
      .up (one (.drops [2])) still]).fate = .abort := by decide

/-- The code breaks C85 when the first callback of a Connect throws: the Connect is never told
of anything again, and connected() stays as it was. -/
theorem C85_throw_first :
    (run {} [.exec 1 true true true, .work (one .throws), .up still still, .down still,
      .up still still]).outs = [{ i := 1, up := false }] ∧
    (run {} [.exec 1 true true true, .work (one .throws), .up still still]).st.active = true ∧
    poll (run {} [.exec 1 true true true, .work (one .throws), .up still still]).st 1
      = some false := by decide

/-- Two Connects, connected. -/
def pair : List Ev :=
  [.exec 1 true true true, .exec 2 true true true, .work still, .work still, .up still still]

/-- The code breaks C85 when an onDisconnect callback throws: the other Connects are not told and
still say connected(); the channel is not searched for again, so no server can bring it back; and
if an operation is using the channel the process is aborted. -/
theorem C85_throw_down :
    (run {} (pair ++ [.down (one .throws)])).fate = .ok ∧
    poll (run {} (pair ++ [.down (one .throws)])).st 2 = some true ∧
    (run {} (pair ++ [.down (one .throws)])).st.active = false ∧
    (run {} (pair ++ [.down (one .throws), .up still still])).st.active = false ∧
    calls 1 (run {} (pair ++ [.down (one .throws), .up still still])).outs = [false, true, false] ∧
    (run {} (pair ++ [.op, .down (one .throws)])).fate = .abort := by decide

/-- An onConnect callback which throws takes the connection down; all are told. -/
theorem C85_throw_up :
    (run {} ([.exec 1 true true true, .exec 2 true true true, .work still, .work still,
      .up (one .throws) still])).outs =
      [⟨1, false⟩, ⟨2, false⟩, ⟨1, true⟩, ⟨1, false⟩] := by decide

/-- Connect::name() is always the name given; Operation::name() follows a null pointer if it is
called before the worker has come to the operation, or when the channel could not be made. -/
theorem C85_name (n : String) (ran good : Bool) :
    connectName n (operationChan n ran good) = some n ∧
    (operationName (operationChan n ran good) = some n ↔ ran = true ∧ good = true) ∧
    (operationName (operationChan n ran good) = none ↔ ¬ (ran = true ∧ good = true)) := by
  cases ran <;> cases good <;> simp [connectName, operationName, operationChan]

end Pvxs.Props.ClientConnect
