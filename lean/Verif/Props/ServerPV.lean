import Verif.Spec.ServerPV
import Verif.Props.PutBuild
import Verif.Props.Source
/-! Property C82 -/
namespace Pvxs.Props.ServerPV
open Pvxs Wire Pvxs.ServerPV Pvxs.Spec Pvxs.Spec.ServerPV

/-! ### sets of names -/

def addAll (m : SMap Unit) (l : List Str) : SMap Unit := l.foldl (fun (m : SMap Unit) n => m.insert n ()) m

theorem addAll_spec (l : List Str) : ∀ {m : SMap Unit}, SMap.Sorted m → SMap.Sorted (addAll m l) ∧ ∀ n, n ∈ (addAll m l).keys ↔ n ∈ m.keys ∨ n ∈ l := by
  induction l with
  | nil => intro m h; exact ⟨h, fun n => by simp [addAll]⟩
  | cons a l ih =>
    intro m h
    have hs := SMap.sorted_insert (k := a) (v := ()) h
    obtain ⟨h1, h2⟩ := ih hs
    refine ⟨h1, fun n => ?_⟩
    have : addAll m (a :: l) = addAll (m.insert a ()) l := rfl
    rw [this, h2 n]
    have : n ∈ (m.insert a ()).keys ↔ n = a ∨ n ∈ m.keys := by
      rw [SMap.mem_keys, SMap.mem_keys]
      constructor
      · rintro ⟨v, hv⟩
        rcases (SMap.mem_insert h _).mp hv with e | ⟨_, hv⟩
        · exact Or.inl (Prod.mk.inj e).1
        · exact Or.inr ⟨v, hv⟩
      · rintro (rfl | ⟨v, hv⟩)
        · exact ⟨(), (SMap.mem_insert h _).mpr (Or.inl rfl)⟩
        · exact ⟨v, (SMap.mem_insert h _).mpr (by by_cases e : n = a
                                                  · exact Or.inl (by rw [e])
                                                  · exact Or.inr ⟨e, hv⟩)⟩
    rw [this, List.mem_cons]
    constructor
    · rintro ((h | h) | h)
      · exact Or.inr (Or.inl h)
      · exact Or.inl h
      · exact Or.inr (Or.inr h)
    · rintro (h | h | h)
      · exact Or.inl (Or.inr h)
      · exact Or.inl (Or.inl h)
      · exact Or.inr h

theorem listing_keys {m : SMap Unit} (h : SMap.Sorted m) {P : Str → Prop} (hP : ∀ n, n ∈ m.keys ↔ P n) : Listing (m.map (·.1)) P := by
  refine ⟨hP, ?_⟩
  rw [List.pairwise_map]
  exact List.Pairwise.imp (fun {a b} hab => (Src.strLt_iff a.1 b.1).mp hab) h

theorem union_fold (lists : List (Option (List Str))) : ∀ {m : SMap Unit}, SMap.Sorted m →
    SMap.Sorted (lists.foldl (fun (m : SMap Unit) l => addAll m (l.getD [])) m) ∧
    ∀ n, n ∈ (lists.foldl (fun (m : SMap Unit) l => addAll m (l.getD [])) m).keys ↔ n ∈ m.keys ∨ ∃ ns, some ns ∈ lists ∧ n ∈ ns := by
  induction lists with
  | nil => intro m h; exact ⟨h, fun n => by simp⟩
  | cons l ls ih =>
    intro m h
    obtain ⟨h1, h2⟩ := addAll_spec (l.getD []) h
    obtain ⟨h3, h4⟩ := ih h1
    refine ⟨h3, fun n => ?_⟩
    rw [List.foldl_cons, h4 n, h2 n]
    cases l with
    | none =>
      simp
    | some ns =>
      simp only [Option.getD_some, List.mem_cons, Option.some.injEq]
      constructor
      · rintro ((h | h) | ⟨ns', h, h'⟩)
        · exact Or.inl h
        · exact Or.inr ⟨ns, Or.inl rfl, h⟩
        · exact Or.inr ⟨ns', Or.inr h, h'⟩
      · rintro (h | ⟨ns', rfl | h, h'⟩)
        · exact Or.inl (Or.inl h)
        · exact Or.inl (Or.inr h')
        · exact Or.inr ⟨ns', h, h'⟩

theorem union_listing (lists : List (Option (List Str))) : Listing (union lists) fun n => ∃ ns, some ns ∈ lists ∧ n ∈ ns := by
  obtain ⟨h1, h2⟩ := union_fold lists (m := []) SMap.sorted_nil
  refine listing_keys h1 (fun n => ?_)
  rw [h2 n]
  simp [SMap.keys]

/-! ### StaticSource -/

theorem find_insert {m : SMap α} (h : SMap.Sorted m) (k n : Str) (v : α) : (m.insert k v).find? n = if n = k then some v else m.find? n := by
  have hs := SMap.sorted_insert (k := k) (v := v) h
  by_cases e : n = k
  · rw [if_pos e, e]
    exact (SMap.find?_some hs).mpr ((SMap.mem_insert h _).mpr (Or.inl rfl))
  · rw [if_neg e]
    cases hf : m.find? n with
    | some w => exact (SMap.find?_some hs).mpr ((SMap.mem_insert h _).mpr (Or.inr ⟨e, (SMap.find?_some h).mp hf⟩))
    | none =>
      refine (SMap.find?_none hs).mpr fun hk => ?_
      obtain ⟨w, hw⟩ := SMap.mem_keys.mp hk
      rcases (SMap.mem_insert h _).mp hw with e' | ⟨_, hw⟩
      · exact e (Prod.mk.inj e').1
      · exact (SMap.find?_none h).mp hf (SMap.mem_keys.mpr ⟨w, hw⟩)

theorem sorted_filter {m : SMap α} (h : SMap.Sorted m) (k : Str) : SMap.Sorted (m.filter fun p => p.1 ≠ k) := List.Pairwise.filter _ h

theorem find_filter {m : SMap α} (h : SMap.Sorted m) (k n : Str) : SMap.find? n (m.filter fun p => p.1 ≠ k) = if n = k then none else m.find? n := by
  have hs := sorted_filter h k
  by_cases e : n = k
  · rw [if_pos e]
    refine (SMap.find?_none hs).mpr fun hk => ?_
    obtain ⟨w, hw⟩ := SMap.mem_keys.mp hk
    have := (List.mem_filter.mp hw).2
    simp [e] at this
  · rw [if_neg e]
    cases hf : m.find? n with
    | some w =>
      refine (SMap.find?_some hs).mpr (List.mem_filter.mpr ⟨(SMap.find?_some h).mp hf, by simpa using e⟩)
    | none =>
      refine (SMap.find?_none hs).mpr fun hk => ?_
      obtain ⟨w, hw⟩ := SMap.mem_keys.mp hk
      exact (SMap.find?_none h).mp hf (SMap.mem_keys.mpr ⟨w, (List.mem_filter.mp hw).1⟩)

/-- what is so after any use -/
structure Inv (s : Static α) (us : List (Use α)) : Prop where
  sorted : SMap.Sorted s.pvs
  find : ∀ n, s.pvs.find? n = here us n
  list : ∀ l, s.list = some l → Listing l fun n => ∃ pv, here us n = some pv

theorem fresh_listing {s : Static α} {us : List (Use α)} (h : SMap.Sorted s.pvs) (hf : ∀ n, s.pvs.find? n = here us n) :
    Listing ((s.pvs.foldl (fun (m : SMap Unit) p => m.insert p.1 ()) []).map (·.1)) fun n => ∃ pv, here us n = some pv := by
  have he : s.pvs.foldl (fun (m : SMap Unit) p => m.insert p.1 ()) [] = addAll [] (s.pvs.map (·.1)) := by
    unfold addAll; rw [List.foldl_map]
  rw [he]
  obtain ⟨h1, h2⟩ := addAll_spec (s.pvs.map (·.1)) (m := []) SMap.sorted_nil
  refine listing_keys h1 (fun n => ?_)
  rw [h2 n, ← hf n]
  constructor
  · rintro (h' | h')
    · simp [SMap.keys] at h'
    · obtain ⟨p, hp, rfl⟩ := List.mem_map.mp h'
      exact ⟨p.2, (SMap.find?_some h).mpr hp⟩
  · rintro ⟨pv, h'⟩
    exact Or.inr (List.mem_map.mpr ⟨(n, pv), (SMap.find?_some h).mp h', rfl⟩)

theorem cached_listing {s : Static α} {us : List (Use α)} (h : Inv s us) (held : Bool) : Listing (s.cached held) fun n => ∃ pv, here us n = some pv := by
  unfold Static.cached
  split
  · rename_i l hl; exact h.list _ hl
  · exact fresh_listing h.sorted h.find

theorem inv_use {s : Static α} {us : List (Use α)} (h : Inv s us) (u : Use α) : Inv (s.use u) (u :: us) := by
  cases u with
  | add n pv =>
    simp only [Static.use, Static.add]
    cases hf : s.pvs.find? n with
    | some old =>
      have e : ∀ m, here (.add n pv :: us) m = here us m := by
        intro m
        simp only [here]
        split
        · rename_i hm; subst hm
          rw [← h.find m, hf]
        · rfl
      refine ⟨h.sorted, fun m => by rw [e]; exact h.find m, fun l hl => ?_⟩
      have := h.list l hl
      exact ⟨fun m => by rw [this.mem m, e], this.order⟩
    | none =>
      refine ⟨SMap.sorted_insert h.sorted, fun m => ?_, fun l hl => by cases hl⟩
      show SMap.find? m (s.pvs.insert n pv) = _
      rw [find_insert h.sorted]
      simp only [here]
      split
      · rename_i hm; subst hm
        rw [← h.find m, hf]
      · exact h.find m
  | remove n =>
    simp only [Static.use, Static.remove]
    cases hf : s.pvs.find? n with
    | none =>
      have e : ∀ m, here (.remove n :: us) m = here us m := by
        intro m
        simp only [here]
        split
        · rename_i hm; subst hm
          rw [← h.find m, hf]
        · rfl
      refine ⟨h.sorted, fun m => by rw [e]; exact h.find m, fun l hl => ?_⟩
      have := h.list l hl
      exact ⟨fun m => by rw [this.mem m, e], this.order⟩
    | some pv =>
      refine ⟨sorted_filter h.sorted n, fun m => ?_, fun l hl => by cases hl⟩
      show SMap.find? m (s.pvs.filter fun p => p.1 ≠ n) = _
      rw [find_filter h.sorted]
      simp only [here]
      split
      · rfl
      · exact h.find m
  | onList held =>
    refine ⟨h.sorted, h.find, fun l hl => ?_⟩
    simp only [Static.use, Static.onList] at hl
    cases hl
    exact cached_listing h held

theorem inv_run (us : List (Use α)) : Inv (Static.run {} us) us.reverse := by
  have : ∀ (us vs : List (Use α)) (s : Static α), Inv s vs → Inv (Static.run s us) (us.reverse ++ vs) := by
    intro us
    induction us with
    | nil => intro vs s h; exact h
    | cons u us ih =>
      intro vs s h
      have := ih (u :: vs) (s.use u) (inv_use h u)
      rw [List.reverse_cons, List.append_assoc]
      exact this
  have h := this us [] {} ⟨SMap.sorted_nil, fun n => rfl, fun l hl => by cases hl⟩
  rwa [List.append_nil] at h

/-- A StaticSource, and so the PVs of Server::addPV(), after any use of it: a channel is attached to the PV which was added with its name
and has not been removed since; exactly these names are claimed in a search; exactly these are listed, each once and in order, whatever has
become of the lists which were handed out before; add() throws just if the name is taken; remove() closes just that PV; close() closes each. -/
theorem C82_static {α : Type} (us : List (Use α)) : let s := Static.run {} us; let now := here us.reverse
    (∀ n, s.create n = now n) ∧
    (∀ n, s.claims n = true ↔ ∃ pv, now n = some pv) ∧
    (∀ held, Listing (s.onList held).1 fun n => ∃ pv, now n = some pv) ∧
    (∀ n pv, s.add n pv = none ↔ ∃ old, now n = some old) ∧
    (∀ n, (s.remove n).1 = now n) ∧
    (∀ n pv, (n, pv) ∈ s.listAll ↔ now n = some pv) ∧
    (∀ pv, pv ∈ s.close ↔ ∃ n, now n = some pv) := by
  have h := inv_run us
  refine ⟨h.find, fun n => ?_, fun held => cached_listing h held, fun n pv => ?_, fun n => ?_, fun n pv => ?_, fun pv => ?_⟩
  · unfold Static.claims; rw [h.find n, Option.isSome_iff_exists]
  · unfold Static.add; rw [h.find n]
    cases here us.reverse n <;> simp
  · unfold Static.remove; rw [← h.find n]
    cases SMap.find? n (Static.run {} us).pvs <;> rfl
  · rw [← h.find n]; exact (SMap.find?_some h.sorted).symm
  · constructor
    · intro hp
      obtain ⟨p, hp', rfl⟩ := List.mem_map.mp hp
      exact ⟨p.1, by rw [← h.find]; exact (SMap.find?_some h.sorted).mpr hp'⟩
    · rintro ⟨n, hn⟩
      rw [← h.find n] at hn
      exact List.mem_map.mpr ⟨(n, pv), (SMap.find?_some h.sorted).mp hn, rfl⟩

example : ((Static.run {} [Use.add [0x62] 1, .add [0x61] 2, .onList false, .add [0x61] 3, .remove [0x62], .add [0x63] 4]).onList false).1 = [[0x61], [0x63]] ∧
    (Static.run {} [Use.add [0x62] 1, .add [0x61] 2, .onList false, .add [0x61] 3, .remove [0x62]]).create [0x61] = some 2 := by decide

/-- Contrary to C82: onList() of one StaticSource in two threads, as for a "channels" call to each of two servers which share it, is a data
race: only the lock for readers is held, and the list is replaced under it. -/
theorem C82_race : ∃ is, Race (Threads.run ⟨fun _ => .out, false⟩ is) := by
  refine ⟨[0, 1, 0], 0, 1, by decide, rfl, by decide⟩

/-- without a second thread there is none -/
theorem C82_race_partial (i : Nat) (is : List Nat) (h : ∀ j ∈ is, j = i) : ¬Race (Threads.run ⟨fun _ => .out, false⟩ is) := by
  have key : ∀ (is : List Nat) (s : Threads), (∀ j ∈ is, j = i) → (∀ j, j ≠ i → s.at_ j = .out) → ∀ j, j ≠ i → (Threads.run s is).at_ j = .out := by
    intro is
    induction is with
    | nil => intro s _ h; exact h
    | cons k is ih =>
      intro s hk h
      have e : k = i := hk k (by simp)
      refine ih (s.step k) (fun j hj => hk j (by simp [hj])) (fun j hj => ?_)
      have hjk : j ≠ k := by rw [e]; exact hj
      unfold Threads.step
      dsimp only
      split
      · simp [hjk, h j hj]
      · split <;> simp [hjk, h j hj]
      · simp [hjk, h j hj]
      · simp [hjk, h j hj]
  rintro ⟨a, b, hab, ha, hb⟩
  have k := key is ⟨fun _ => .out, false⟩ h (fun _ _ => rfl)
  by_cases e : a = i
  · exact hb (k b (fun hb' => hab (e.trans hb'.symm)))
  · rw [k a e] at ha; cases ha

/-! ### arguments -/

theorem part_iff {t : List FieldDesc} (hu : Usable t) {i : Nat} {d : FieldDesc} (hd : t[i]? = some d) (hs : d.code = .Struct) {name : Str}
    (hn : (0x2e : Byte) ∉ name) (o : Nat) : d.mlookup.find? name = some o ↔ Part t i name (i + o) := by
  rw [(Lkp.table_of hu).2 i d hd hs]
  constructor
  · rintro ⟨ps, hne, e, hp⟩
    have := joinDots_noDot hne (by rw [← e]; exact hn)
    rw [← e] at this
    subst this
    generalize hj : i + o = j at hp ⊢
    cases hp with
    | member _ d' _ off _ _ hd' hc hm h =>
      generalize hk : i + off = k at h
      cases h with
      | here => exact ⟨d', off, hd', hc, hm, hk.symm⟩
  · rintro ⟨d', off, hd', hc, hm, e⟩
    rw [e]
    exact ⟨[name], by simp, rfl, .member i d' name off [] _ hd' hc hm (.here _)⟩

theorem part_lt {t : List FieldDesc} (hu : Usable t) {i j : Nat} {name : Str} (h : Part t i name j) : j < t.length := by
  obtain ⟨d, off, hd, hc, hm, rfl⟩ := h
  obtain ⟨_, c, h1, _⟩ := ((Lkp.table_of hu).1 i d hd).child hc name off hm
  exact (List.getElem?_eq_some_iff.mp h1).1

theorem part_fun {t : List FieldDesc} (hu : Usable t) {i j j' : Nat} {name : Str} (hn : (0x2e : Byte) ∉ name) (h : Part t i name j) (h' : Part t i name j') : j = j' := by
  obtain ⟨d, off, hd, hc, hm, e⟩ := id h
  obtain ⟨d', off', hd', hc', hm', e'⟩ := id h'
  have a := (part_iff hu hd hc hn off).mpr (by rw [← e]; exact h)
  have b := (part_iff hu hd hc hn off').mpr (by rw [← e']; exact h')
  rw [a] at b; cases b; rw [e, e']

/-- how `v[name]` ends -/
theorem index_part {t : List FieldDesc} (hu : Usable t) (cs : List Cell) {i : Nat} (hi : i < t.length) {c : Byte} {s : Str}
    (hp : PutBuild.Plain (c :: s)) (hn : (0x2e : Byte) ∉ c :: s) :
    (∃ j, Part t i (c :: s) j ∧ index true ⟨t, cs, i⟩ (c :: s) = .ok (some ⟨t, cs, j⟩)) ∨
    ((∀ j, ¬Part t i (c :: s) j) ∧ index true ⟨t, cs, i⟩ (c :: s) = .ok none) := by
  obtain ⟨d, hd⟩ : ∃ d, t[i]? = some d := ⟨_, List.getElem?_eq_getElem hi⟩
  have ha := PutBuild.plain_any hp
  have hw : (c :: s).takeWhile (fun c => !endsName c) = c :: s := by
    refine takeWhile_all _ _ (fun x hx => ?_)
    have := List.any_eq_false.mp ha x hx
    simpa using this
  have hdw : (c :: s).dropWhile (fun c => !endsName c) = [] := by
    refine dropWhile_all _ _ (fun x hx => ?_)
    have := List.any_eq_false.mp ha x hx
    simpa using this
  have hc := hp c (by simp)
  have hc1 : c ≠ 0x3c := hc.1
  have hc2 : c ≠ 0x2d := hc.2.2
  have hc3 : c ≠ 0x5b := hc.2.1
  have hstep : stepLookup true true false (c :: s) ⟨t, cs, i⟩ =
      if d.code = .Struct then (match d.mlookup.find? (c :: s) with
        | some o => .go false [] ⟨t, cs, i + o⟩
        | none => .null) else .null := by
    unfold stepLookup
    simp only [hd]
    split
    · rename_i r heq; cases heq; exact absurd rfl hc1
    · by_cases hs : d.code = .Struct
      · rw [if_pos hs, if_pos hs]
        unfold stepStruct
        simp only [Bool.false_eq_true, false_and, ↓reduceIte]
        rw [hw, hdw]
        rfl
      · rw [if_neg hs, if_neg hs]
        split
        · split
          · rename_i heq; cases heq; exact absurd rfl hc2
          · rfl
        · split
          · unfold stepIndex splitIndex
            split
            · rfl
            · rename_i h; revert h; split
              · rename_i heq; cases heq; exact absurd rfl hc3
              · simp
          · rfl
  unfold index
  rw [traverse, hstep]
  by_cases hs : d.code = .Struct
  · rw [if_pos hs]
    cases hm : d.mlookup.find? (c :: s) with
    | none =>
      refine Or.inr ⟨fun j hj => ?_, rfl⟩
      obtain ⟨d', off, hd', _, _, e⟩ := id hj
      have := (part_iff hu hd hs hn off).mpr (by rw [← e]; exact hj)
      rw [hm] at this; cases this
    | some o =>
      refine Or.inl ⟨i + o, (part_iff hu hd hs hn o).mp hm, ?_⟩
      have hadv : advances (c :: s) [] ⟨t, cs, i⟩ ⟨t, cs, i + o⟩ = true := by simp [advances]
      simp only [hadv, ↓reduceDIte]
      rw [traverse]
  · rw [if_neg hs]
    refine Or.inr ⟨fun j hj => ?_, rfl⟩
    obtain ⟨d', off, hd', hc', _, e⟩ := hj
    rw [hd] at hd'; cases hd'; exact hs hc'

theorem argsAt_lt {t : List FieldDesc} (hu : Usable t) {i : Nat} (h : ArgsAt t i) : i < t.length := by
  rcases h with h | ⟨_, rfl⟩
  · exact part_lt hu h
  · exact Lkp.usable_ne hu

theorem argsAt_fun {t : List FieldDesc} (hu : Usable t) {i j : Nat} (h : ArgsAt t i) (h' : ArgsAt t j) : i = j := by
  rcases h with h | ⟨h1, h2⟩
  · rcases h' with h' | ⟨h1', _⟩
    · exact part_fun hu (by decide) h h'
    · exact absurd h (h1' _)
  · rcases h' with h' | ⟨_, h2'⟩
    · exact absurd h' (h1 _)
    · rw [h2, h2']

theorem plain_of {l : Str} (h : (l.all fun c => c != 0x3c && c != 0x5b && c != 0x2d) = true) : PutBuild.Plain l := by
  intro c hc
  have := List.all_eq_true.mp h c hc
  simpa [and_assoc] using this

theorem says_text {x : Datum} {s : Str} (h : Says x s) (f : Nat → Str) : textOf f x = some s := by
  induction h with
  | str s => rfl
  | any t m x cs s _ ih => simp only [textOf, textIn, textFirst]; exact ih
  | union k t m x cs s _ ih => simp only [textOf, textIn, textFirst]; exact ih

/-- what the handler does, once the fields are found -/
def Does (e : Env) (t : List FieldDesc) (cs : List Cell) : Prop :=
    ∃ i help op, ArgsAt t i ∧ ((∃ j, Part t i helpName j ∧ help = some (⟨t, cs, j⟩ : Handle)) ∨ ((∀ j, ¬Part t i helpName j) ∧ help = none)) ∧
      ((∃ j, Part t i opName j ∧ op = some (⟨t, cs, j⟩ : Handle)) ∨ ((∀ j, ¬Part t i opName j) ∧ op = none)) ∧
      handler e (.mk t cs) = match opText e op with
        | none => .ok ⟨helpActs help, true⟩
        | some s => .ok ⟨helpActs help ++ [perform e s], false⟩

theorem handler_of (e : Env) {t : List FieldDesc} (hu : Usable t) (cs : List Cell) : Does e t cs := by
  have step : ∀ i, i < t.length → ArgsAt t i → (∀ q, index true ⟨t, cs, 0⟩ queryName = .ok q → unwrap q (some (⟨t, cs, 0⟩ : Handle)) = some ⟨t, cs, i⟩) →
      (∃ q, index true ⟨t, cs, 0⟩ queryName = .ok q) → Does e t cs := by
    intro i hi hai hq ⟨q, hq0⟩
    have hq1 := hq q hq0
    have ho : ∃ op, ((∃ j, Part t i opName j ∧ op = some (⟨t, cs, j⟩ : Handle)) ∨ ((∀ j, ¬Part t i opName j) ∧ op = none)) ∧ index true ⟨t, cs, i⟩ opName = .ok op := by
      rcases index_part hu cs hi (c := 0x6f) (s := [0x70]) (plain_of (by decide)) (by decide) with ⟨j, h1, h2⟩ | ⟨h1, h2⟩
      · exact ⟨_, Or.inl ⟨j, h1, rfl⟩, h2⟩
      · exact ⟨_, Or.inr ⟨h1, rfl⟩, h2⟩
    have hh : ∃ help, ((∃ j, Part t i helpName j ∧ help = some (⟨t, cs, j⟩ : Handle)) ∨ ((∀ j, ¬Part t i helpName j) ∧ help = none)) ∧ index true ⟨t, cs, i⟩ helpName = .ok help := by
      rcases index_part hu cs hi (c := 0x68) (s := [0x65, 0x6c, 0x70]) (plain_of (by decide)) (by decide) with ⟨j, h1, h2⟩ | ⟨h1, h2⟩
      · exact ⟨_, Or.inl ⟨j, h1, rfl⟩, h2⟩
      · exact ⟨_, Or.inr ⟨h1, rfl⟩, h2⟩
    obtain ⟨op, ho1, ho2⟩ := ho
    obtain ⟨help, hh1, hh2⟩ := hh
    refine ⟨i, help, op, hai, hh1, ho1, ?_⟩
    unfold handler
    simp only [Val.handle?, field, hq0, Res.bind_ok, hq1, hh2, ho2]
    cases opText e op <;> rfl
  rcases index_part hu cs (Lkp.usable_ne hu) (c := 0x71) (s := [0x75, 0x65, 0x72, 0x79]) (plain_of (by decide)) (by decide) with ⟨j, h1, h2⟩ | ⟨h1, h2⟩
  · refine step j (part_lt hu h1) (Or.inl h1) (fun q hq => ?_) ⟨_, h2⟩
    have := h2.symm.trans hq
    cases this
    rfl
  · refine step 0 (Lkp.usable_ne hu) (Or.inr ⟨h1, rfl⟩) (fun q hq => ?_) ⟨_, h2⟩
    have := h2.symm.trans hq
    cases this
    rfl

/-- the answer to a request for help, which is given first -/
def helpFirst (t : List FieldDesc) (acts : List Act) : Prop :=
  (AsksHelp t ∧ acts = [.reply (.text helpText)]) ∨ (¬AsksHelp t ∧ acts = [])

theorem helpActs_spec {t : List FieldDesc} (hu : Usable t) {cs : List Cell} {i : Nat} (hi : ArgsAt t i) {help : Option Handle}
    (h : (∃ j, Part t i helpName j ∧ help = some (⟨t, cs, j⟩ : Handle)) ∨ ((∀ j, ¬Part t i helpName j) ∧ help = none)) : helpFirst t (helpActs help) := by
  rcases h with ⟨j, h1, rfl⟩ | ⟨h1, rfl⟩
  · exact Or.inl ⟨⟨i, j, hi, h1⟩, rfl⟩
  · refine Or.inr ⟨?_, rfl⟩
    rintro ⟨i', j, hi', hj⟩
    rw [argsAt_fun hu hi' hi] at hj
    exact h1 j hj

theorem handler_asks (e : Env) {t : List FieldDesc} (hu : Usable t) (cs : List Cell) {s : Str} (h : Asks t cs s) :
    ∃ acts, helpFirst t acts ∧ handler e (.mk t cs) = .ok ⟨acts ++ [perform e s], false⟩ := by
  obtain ⟨i, j, m, x, hi, hj, hx, hs⟩ := h
  obtain ⟨i', help, op, hi', hh, ho, he⟩ := handler_of e hu cs
  have := argsAt_fun hu hi hi'
  subst this
  refine ⟨_, helpActs_spec hu hi hh, ?_⟩
  rcases ho with ⟨j', hj', rfl⟩ | ⟨hj', _⟩
  · have := part_fun hu (by decide) hj' hj
    subst this
    have hx' : opText e (some ⟨t, cs, j'⟩) = some s := by
      unfold opText datumOf datumAt
      simp only [Option.bind_some, hx]
      exact says_text hs _
    rw [he, hx']
  · exact absurd hj (hj' j)

/-- The PV "server", called with op="channels": the reply has exactly the names which the sources list, each once and in order, unless help was
asked for as well, then that is sent first. -/
theorem C82_channels (e : Env) {t : List FieldDesc} (hu : Usable t) (cs : List Cell)
    (h : Asks t cs [0x63, 0x68, 0x61, 0x6e, 0x6e, 0x65, 0x6c, 0x73]) :
    ∃ acts l, helpFirst t acts ∧ handler e (.mk t cs) = .ok ⟨acts ++ [.reply (.texts l)], false⟩ ∧ Listing l fun n => ∃ ns, some ns ∈ e.lists ∧ n ∈ ns := by
  obtain ⟨acts, h1, h2⟩ := handler_asks e hu cs h
  exact ⟨acts, union e.lists, h1, h2, union_listing _⟩

/-- op="info": the implementation and its version -/
theorem C82_info (e : Env) {t : List FieldDesc} (hu : Usable t) (cs : List Cell) (h : Asks t cs [0x69, 0x6e, 0x66, 0x6f]) :
    ∃ acts, helpFirst t acts ∧ handler e (.mk t cs) = .ok ⟨acts ++ [.reply (.info [0x63, 0x70, 0x70] e.version)], false⟩ := handler_asks e hu cs h

/-- any other text: an error -/
theorem C82_other (e : Env) {t : List FieldDesc} (hu : Usable t) (cs : List Cell) {s : Str} (h : Asks t cs s)
    (h1 : s ≠ [0x63, 0x68, 0x61, 0x6e, 0x6e, 0x65, 0x6c, 0x73]) (h2 : s ≠ [0x69, 0x6e, 0x66, 0x6f]) :
    ∃ acts msg, helpFirst t acts ∧ msg ≠ [] ∧ handler e (.mk t cs) = .ok ⟨acts ++ [.error msg], false⟩ := by
  obtain ⟨acts, a, b⟩ := handler_asks e hu cs h
  refine ⟨acts, notImplText, a, by decide, ?_⟩
  rw [b]
  unfold perform
  rw [if_neg (show s ≠ channelsText from h1), if_neg (show s ≠ infoText from h2)]

/-- without "op" nothing is answered but a request for help -/
theorem C82_no_op (e : Env) {t : List FieldDesc} (hu : Usable t) (cs : List Cell) (h : NoOp t) :
    ∃ acts, helpFirst t acts ∧ handler e (.mk t cs) = .ok ⟨acts, true⟩ := by
  obtain ⟨i', help, op, hi', hh, ho, he⟩ := handler_of e hu cs
  refine ⟨_, helpActs_spec hu hi' hh, ?_⟩
  rcases ho with ⟨j', hj', rfl⟩ | ⟨hj', rfl⟩
  · exact absurd hj' (h _ hi' _)
  · rw [he]; rfl

/-! ### an example: {query: {op: "channels"}} -/

def exDesc : List FieldDesc :=
  [{ code := .Struct, mlookup := [(queryName, 1), (queryName ++ 0x2e :: opName, 2)], miter := [(queryName, 1)] },
   { code := .Struct, mlookup := [(opName, 1)], miter := [(opName, 1)], parentIndex := 1 },
   { code := .String, parentIndex := 1 }]

def exMember : Member := { code := .Struct, children := [{ code := .Struct, name := queryName, children := [{ code := .String, name := opName }] }] }

theorem exDesc_usable : Usable exDesc :=
  ⟨.built exMember exDesc (build_total exMember (by simp [exMember, Validated, ValidatedAll]; decide) (by simp [exMember, DistinctNames, DistinctNamesAll]; decide)), rfl⟩

def exCells (s : Str) : List Cell := [.mk false .null, .mk false .null, .mk true (.str s)]

theorem ex_args : ArgsAt exDesc 1 := Or.inl ⟨_, 1, rfl, rfl, by simp [queryName], rfl⟩

theorem ex_asks (s : Str) : Asks exDesc (exCells s) s :=
  ⟨1, 2, true, _, ex_args, ⟨_, 1, rfl, rfl, by simp [opName], rfl⟩, rfl, .str s⟩

theorem ex_noHelp : ¬AsksHelp exDesc := by
  rintro ⟨i, j, hi, d, off, hd, hc, hm, _⟩
  rw [argsAt_fun exDesc_usable hi ex_args] at hd
  cases hd
  simp [opName] at hm

/-- C82_channels applies: two sources, and one which lists nothing -/
example : ∃ l, handler ⟨[some [[0x62], [0x61]], none, some [[0x63], [0x61]]], [], fun _ => []⟩ (.mk exDesc (exCells channelsText)) = .ok ⟨[.reply (.texts l)], false⟩ ∧
    l = [[0x61], [0x62], [0x63]] := by
  obtain ⟨acts, h1, h2⟩ := handler_asks ⟨[some [[0x62], [0x61]], none, some [[0x63], [0x61]]], [], fun _ => []⟩ exDesc_usable (exCells channelsText) (ex_asks _)
  rcases h1 with ⟨h, _⟩ | ⟨_, rfl⟩
  · exact absurd h ex_noHelp
  · exact ⟨_, h2, by decide⟩

/-! ### what the client gets -/

theorem run_idle (k : Nat) (acts : List Act) : ∀ (s : Server.SConn) (i : Nat) (op : Server.SOp), s.handles[k]? = some i → s.ops[i]? = some op →
    op.kind = .rpc → (op.state = .idle ∨ op.state = .dead) → Server.run s (acts.map (Act.ev k)) = s := by
  induction acts with
  | nil => intros; rfl
  | cons a acts ih =>
    intro s i op h1 h2 h3 h4
    have hstep : Server.step s (a.ev k) = s := by
      have : ∀ v ok, Server.useHandle s k v ok = s := by
        intro v ok
        unfold Server.useHandle
        simp only [h1, h2, h3]
        rw [if_neg (by simp)]
        unfold Server.doReply
        simp only [h2]
        rw [if_pos (by rcases h4 with h | h <;> simp [h])]
      unfold Server.step
      split
      · rfl
      · cases a <;> exact this _ _
    show Server.run (Server.step s (a.ev k)) _ = s
    rw [hstep]
    exact ih s i op h1 h2 h3 h4

/-- what the first call does -/
def isReply : Act → Bool
  | .reply _ => true
  | .error _ => false

/-- However often the handler replies, the client gets its first reply and no other; and none if there is none, even if it throws. -/
theorem C82_once {s : Server.SConn} {k i : Nat} {op : Server.SOp} (h : Pending s k i op) (d : Done) :
    ∃ more, (Server.run s (d.evs k)).log = s.log ++ more ∧
      replies k more = (match d.acts with | [] => [] | a :: _ => [.replied i (.handle k) (isReply a)]) := by
  obtain ⟨h1, h2, h3, h4, h5, h6⟩ := h
  cases hd : d.acts with
  | nil =>
    refine ⟨[], ?_, rfl⟩
    unfold Done.evs
    rw [hd]
    simp [Server.run]
  | cons a acts =>
    unfold Done.evs
    rw [hd]
    have hstep : Server.step s (a.ev k) = Server.doReply s i (if isReply a then some 0 else none) (isReply a) (.handle k) := by
      unfold Server.step
      rw [if_neg (by simp [h2])]
      have : ∀ v ok, Server.useHandle s k v ok = Server.doReply s i v ok (.handle k) := by
        intro v ok
        unfold Server.useHandle
        simp only [h3, h4, h5]
        rw [if_neg (by simp)]
      cases a <;> exact this _ _
    have hi : i < s.ops.length := (List.getElem?_eq_some_iff.mp h4).1
    have hreply : Server.replyOK op (if isReply a then some 0 else none) = true := by simp [Server.replyOK, h5]
    obtain ⟨st, hst, hst'⟩ : ∃ st, Server.replyState op (isReply a) = st ∧ (st = .idle ∨ st = .dead) := by
      refine ⟨_, rfl, ?_⟩
      unfold Server.replyState
      rw [h6]
      cases isReply a <;> simp
    have hdo : Server.doReply s i (if isReply a then some 0 else none) (isReply a) (.handle k) =
        (((s.modOp i fun op => { op with state := st }).emit (.replied i (.handle k) (isReply a))).emitIf (st == .dead) (.ended i .reply)) := by
      unfold Server.doReply
      simp only [h4]
      rw [if_neg (by simp [h1, h6]), if_neg (by simp [hreply]), hst]
    have hh : ∀ x : Server.SConn, x = (((s.modOp i fun op => { op with state := st }).emit (.replied i (.handle k) (isReply a))).emitIf (st == .dead) (.ended i .reply)) →
        x.handles[k]? = some i ∧ x.ops[i]? = some { op with state := st } ∧
        x.log = s.log ++ (.replied i (.handle k) (isReply a) :: if st == .dead then [.ended i .reply] else []) := by
      rintro x rfl
      unfold Server.SConn.emitIf
      split
      · refine ⟨h3, ?_, ?_⟩
        · simp [Server.SConn.emit, Server.SConn.modOp, h4]
        · simp [Server.SConn.emit, Server.SConn.modOp]
      · refine ⟨h3, ?_, ?_⟩
        · simp [Server.SConn.emit, Server.SConn.modOp, h4]
        · simp [Server.SConn.emit, Server.SConn.modOp]
    obtain ⟨e1, e2, e3⟩ := hh _ rfl
    have hrun : Server.run s ((a :: acts).map (Act.ev k)) = Server.run (Server.step s (a.ev k)) (acts.map (Act.ev k)) := rfl
    rw [hrun, hstep, hdo, run_idle k acts _ i _ e1 e2 h5 hst', e3]
    refine ⟨_, rfl, ?_⟩
    split <;> simp [replies]

/-- a connection on which an RPC is executing -/
def exConn : Server.SConn := Server.run {} [.createChan 1 false true false false, .gprInit .rpc 0x07050301 5 8, .gprExec .rpc 5 0 true]

example : ∃ op, Pending exConn 0 0 op := ⟨_, by decide, by decide, by decide, rfl, rfl, rfl⟩

/-- Contrary to C82: a call without "op" is not answered, not even by an error: the client waits. -/
theorem C82_silent : ∃ (t : List FieldDesc) (cs : List Cell), Usable t ∧ ∀ e, ∃ d, handler e (.mk t cs) = .ok d ∧
    ∀ (s : Server.SConn) (k i : Nat) (op : Server.SOp), Pending s k i op → (Server.run s (d.evs k)).log = s.log := by
  refine ⟨exT, exV true |>.cells, exT_usable, fun e => ?_⟩
  have hargs : ArgsAt exT 0 := Or.inr ⟨by
    rintro j ⟨d, off, hd, _, hm, _⟩
    cases hd
    simp at hm, rfl⟩
  have hno : NoOp exT := by
    intro i hi j
    rw [argsAt_fun exT_usable hi hargs]
    rintro ⟨d, off, hd, _, hm, _⟩
    cases hd
    simp at hm
  obtain ⟨acts, h1, h2⟩ := C82_no_op e exT_usable (exV true).cells hno
  rcases h1 with ⟨⟨i, j, hi, hj⟩, _⟩ | ⟨_, rfl⟩
  · exfalso
    rw [argsAt_fun exT_usable hi hargs] at hj
    obtain ⟨d, off, hd, _, hm, _⟩ := hj
    cases hd
    simp at hm
  · exact ⟨_, h2, fun s k i op _ => rfl⟩

/-- the same in full: the RPC executes, nothing is sent, and no further call of this operation gets to the handler -/
example : (Server.run exConn (Done.evs 0 ⟨[], true⟩)).log = exConn.log ∧ (Server.run exConn (Done.evs 0 ⟨[], true⟩ ++ [.gprExec .rpc 5 0 true])).log = exConn.log := by decide

/-- Contrary to C82: who asks for help and for something else gets the help only. -/
theorem C82_help {t : List FieldDesc} (hu : Usable t) (cs : List Cell) {s : Str} (h : Asks t cs s) (hh : AsksHelp t) (e : Env) :
    ∃ d a, handler e (.mk t cs) = .ok d ∧ d.acts = [.reply (.text helpText), a] ∧
    ∀ (s : Server.SConn) (k i : Nat) (op : Server.SOp), Pending s k i op → ∃ more, (Server.run s (d.evs k)).log = s.log ++ more ∧
      replies k more = [.replied i (.handle k) true] := by
  obtain ⟨acts, h1, h2⟩ := handler_asks e hu cs h
  rcases h1 with ⟨_, rfl⟩ | ⟨h1, _⟩
  · refine ⟨_, perform e s, h2, rfl, fun c k i op hp => ?_⟩
    obtain ⟨more, h3, h4⟩ := C82_once hp (⟨[.reply (.text helpText)] ++ [perform e s], false⟩ : Done)
    exact ⟨more, h3, h4⟩
  · exact absurd hh h1

def ex2Desc : List FieldDesc :=
  [{ code := .Struct, mlookup := [(helpName, 2), (opName, 1)], miter := [(opName, 1), (helpName, 2)] },
   { code := .String, parentIndex := 1 }, { code := .Bool, parentIndex := 2 }]

def ex2Member : Member := { code := .Struct, children := [{ code := .String, name := opName }, { code := .Bool, name := helpName }] }

/-- C82_help applies: {op: "channels", help: true} -/
example : ∃ t cs, Usable t ∧ Asks t cs channelsText ∧ AsksHelp t := by
  have hargs : ArgsAt ex2Desc 0 := Or.inr ⟨by
    rintro j ⟨d, off, hd, _, hm, _⟩
    cases hd
    simp [helpName, opName] at hm, rfl⟩
  refine ⟨ex2Desc, [.mk false .null, .mk true (.str channelsText), .mk true (.bool true)],
    ⟨.built ex2Member ex2Desc (build_total ex2Member (by simp [ex2Member, Validated, ValidatedAll]; decide) (by simp [ex2Member, DistinctNames, DistinctNamesAll]; decide)), rfl⟩,
    ⟨0, 1, true, _, hargs, ⟨_, 1, rfl, rfl, by simp [opName], rfl⟩, rfl, .str _⟩, ⟨0, 2, hargs, ⟨_, 2, rfl, rfl, by simp [helpName], rfl⟩⟩⟩

/-- Contrary to C82: a PV which is added with addPV("server") hides it, as its source comes first. -/
theorem C82_hidden {α : Type} (server builtin : α) : (builtins server builtin).map (·.2) = [builtin, server] := by
  simp [builtins, Source.put, Source.keyLt, strLt]

end Pvxs.Props.ServerPV
