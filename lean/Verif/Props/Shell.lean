import Verif.Spec.Shell
import Verif.Lemmas.SMap
/-
C114: pvxrefdiff shows what has changed, and dbpvar counts what there is.
-/
namespace Pvxs.Props.Shell
open Pvxs Pvxs.Shell Pvxs.Spec.Shell

/-! ### maps -/

theorem find_insert (m : SMap α) (k q : Str) (v : α) (hm : IsMap m) : (m.insert k v).find? q = if q = k then some v else m.find? q := by
  induction m with
  | nil => by_cases h : q = k <;> simp [SMap.insert, SMap.find?, h]
  | cons p m ih =>
    obtain ⟨k', v'⟩ := p
    have ht : IsMap m := (List.pairwise_cons.mp hm).2
    unfold SMap.insert
    split
    · rename_i h
      subst h
      by_cases hq : q = k <;> simp [SMap.find?, hq]
    · rename_i h
      split
      · by_cases hq : q = k <;> simp [SMap.find?, hq]
      · simp only [SMap.find?, ih ht]
        by_cases hq : q = k
        · subst hq; simp [h]
        · simp [hq]

theorem find_none (m : SMap α) (k : Str) (h : ∀ p ∈ m, p.1 ≠ k) : m.find? k = none := by
  induction m with
  | nil => rfl
  | cons p m ih =>
    have h1 := h p (by simp)
    simp only [SMap.find?]
    rw [if_neg (fun e => h1 e.symm)]
    exact ih fun q hq => h q (by simp [hq])

theorem find_below (m : SMap α) (k : Str) (h : ∀ p ∈ m, strLt k p.1 = true) : m.find? k = none := by
  refine find_none m k fun p hp e => ?_
  have := h p hp
  rw [e, strLt_irrefl] at this
  cases this

theorem mem_find (m : SMap α) (hm : IsMap m) (k : Str) (v : α) : (k, v) ∈ m ↔ m.find? k = some v := by
  induction m with
  | nil => simp [SMap.find?]
  | cons p m ih =>
    obtain ⟨k', v'⟩ := p
    obtain ⟨h1, h2⟩ := List.pairwise_cons.mp hm
    simp only [List.mem_cons, Prod.mk.injEq, SMap.find?]
    by_cases h : k = k'
    · subst h
      have hn := find_below m k fun p hp => h1 p hp
      have : (k, v) ∉ m := by rw [ih h2, hn]; simp
      simp [this]
      exact ⟨fun h => h.symm, fun h => h.symm⟩
    · simp [h, ih h2]

theorem insert_map (m : SMap α) (k : Str) (v : α) (h : IsMap m) : IsMap (m.insert k v) := SMap.sorted_insert h

theorem co_map (c p : SMap Nat) (d : SMap Int) (h : IsMap d) : IsMap (coIterate c p d) := by
  induction c, p, d using coIterate.induct with
  | case1 d => simpa [coIterate] using h
  | case2 b y p d ih => rw [coIterate]; exact ih (insert_map _ _ _ h)
  | case3 a x c d ih => rw [coIterate]; exact ih (insert_map _ _ _ h)
  | case4 a x c y p d ih => rw [coIterate]; simp only [if_true]; exact ih (insert_map _ _ _ h)
  | case5 a x c b y p d hab hlt ih => rw [coIterate]; simp only [hab, if_false, hlt, if_true]; exact ih (insert_map _ _ _ h)
  | case6 a x c b y p d hab hlt ih => rw [coIterate]; simp only [hab, if_false, hlt]; exact ih (insert_map _ _ _ h)

/-- what `diff` has for a name -/
def expect (x y : Option Nat) (old : Option Int) : Option Int := match x, y with
  | none, none => old
  | x, y => some (((x.getD 0 : Nat) : Int) - ((y.getD 0 : Nat) : Int))

theorem co_find (c p : SMap Nat) (d : SMap Int) (hc : IsMap c) (hp : IsMap p) (hd : IsMap d) (k : Str) :
    (coIterate c p d).find? k = expect (c.find? k) (p.find? k) (d.find? k) := by
  induction c, p, d using coIterate.induct with
  | case1 d => simp [coIterate, SMap.find?, expect]
  | case2 b y p d ih =>
    obtain ⟨h1, h2⟩ := List.pairwise_cons.mp hp
    rw [coIterate, ih hc h2 (insert_map _ _ _ hd), find_insert _ _ _ _ hd]
    by_cases h : k = b
    · subst h
      rw [find_below p k fun q hq => h1 q hq]
      simp [SMap.find?, expect]
    · simp [SMap.find?, h]
  | case3 a x c d ih =>
    obtain ⟨h1, h2⟩ := List.pairwise_cons.mp hc
    rw [coIterate, ih h2 hp (insert_map _ _ _ hd), find_insert _ _ _ _ hd]
    by_cases h : k = a
    · subst h
      rw [find_below c k fun q hq => h1 q hq]
      simp [SMap.find?, expect]
    · simp [SMap.find?, h]
  | case4 x c a y p d ih =>
    obtain ⟨h1, h2⟩ := List.pairwise_cons.mp hc
    obtain ⟨h3, h4⟩ := List.pairwise_cons.mp hp
    rw [coIterate]
    simp only [if_true]
    rw [ih h2 h4 (insert_map _ _ _ hd), find_insert _ _ _ _ hd]
    by_cases h : k = a
    · subst h
      rw [find_below c k fun q hq => h1 q hq, find_below p k fun q hq => h3 q hq]
      simp [SMap.find?, expect]
    · simp [SMap.find?, h]
  | case5 a x c b y p d hab hlt ih =>
    obtain ⟨h1, h2⟩ := List.pairwise_cons.mp hc
    obtain ⟨h3, h4⟩ := List.pairwise_cons.mp hp
    rw [coIterate]
    simp only [hab, if_false, hlt, if_true]
    rw [ih hc h4 (insert_map _ _ _ hd), find_insert _ _ _ _ hd]
    by_cases h : k = b
    · subst h
      have hn : SMap.find? k ((a, x) :: c) = none := by
        refine find_below _ _ fun q hq => ?_
        simp only [List.mem_cons] at hq
        rcases hq with rfl | hq
        · exact hlt
        · exact strLt_trans hlt (h1 q hq)
      rw [hn, find_below p k fun q hq => h3 q hq]
      simp [SMap.find?, expect]
    · simp [SMap.find?, h]
  | case6 a x c b y p d hab hlt ih =>
    obtain ⟨h1, h2⟩ := List.pairwise_cons.mp hc
    obtain ⟨h3, h4⟩ := List.pairwise_cons.mp hp
    rw [coIterate]
    simp only [hab, if_false, hlt]
    rw [if_neg (by simp), ih h2 hp (insert_map _ _ _ hd), find_insert _ _ _ _ hd]
    have hlt' : strLt a b = true := (strLt_total hab).resolve_right hlt
    by_cases h : k = a
    · subst h
      have hn : SMap.find? k ((b, y) :: p) = none := by
        refine find_below _ _ fun q hq => ?_
        simp only [List.mem_cons] at hq
        rcases hq with rfl | hq
        · exact hlt'
        · exact strLt_trans hlt' (h3 q hq)
      rw [hn, find_below c k fun q hq => h1 q hq]
      simp [SMap.find?, expect]
    · simp [SMap.find?, h]

/-! ### pvxrefdiff -/

/-- pvxrefdiff prints a line for a kind of object if and only if its number differs from that at the time of pvxrefsave, and prints the difference. -/
theorem C114_diff (prev cur : SMap Nat) (hp : IsMap prev) (hc : IsMap cur) (k : Str) (n : Int) :
    (k, n) ∈ refDiff prev cur ↔ n = count cur k - count prev k ∧ n ≠ 0 := by
  have hm := co_map cur prev [] List.Pairwise.nil
  unfold refDiff
  simp only [List.mem_filter, decide_eq_true_eq, ne_eq]
  rw [mem_find _ hm, co_find _ _ _ hc hp List.Pairwise.nil]
  simp only [count]
  cases h1 : SMap.find? k cur <;> cases h2 : SMap.find? k prev <;> simp [expect, SMap.find?] <;> omega

/-- No kind is printed twice, and they are in order. -/
theorem C114_diff_order (prev cur : SMap Nat) : IsMap (refDiff prev cur) := List.Pairwise.filter _ (co_map cur prev [] List.Pairwise.nil)

/-- Nothing is printed if and only if nothing has changed. -/
theorem C114_diff_none (prev cur : SMap Nat) (hp : IsMap prev) (hc : IsMap cur) : refDiff prev cur = [] ↔ ∀ k, count cur k = count prev k := by
  constructor
  · intro h k
    have h1 := C114_diff prev cur hp hc k (count cur k - count prev k)
    rw [h] at h1
    simp at h1
    omega
  · intro h
    cases hl : refDiff prev cur with
    | nil => rfl
    | cons q l =>
      obtain ⟨k, n⟩ := q
      have h1 := (C114_diff prev cur hp hc k n).mp (by rw [hl]; simp)
      have := h k
      omega

/-- pvxrefshow prints the number of each kind of which there are any. -/
theorem C114_show (cur : SMap Nat) (hc : IsMap cur) (k : Str) (n : Nat) : (k, n) ∈ refShow cur ↔ count cur k = n ∧ 0 < n := by
  unfold refShow
  simp only [List.mem_filter, decide_eq_true_eq]
  rw [mem_find _ hc]
  simp only [count]
  cases h1 : SMap.find? k cur <;> simp <;> omega

/-! ### dbpvar -/

theorem matching_count (g : Str → Bool) (l : List (Option Str)) : matching g l = l.countP (Shown (some g)) := by
  induction l with
  | nil => rfl
  | cons x l ih =>
    cases x with
    | none => simp [matching, ih, Shown]
    | some r => by_cases h : g r = true <;> simp [matching, ih, Shown, h] <;> omega

theorem visit_eq (glob : Option (Str → Bool)) (s : Sums) (c : Chan) : visit glob s c =
    { nconn := s.nconn + (if Used glob c && c.connected then 1 else 0), nchans := s.nchans + (if Used glob c then 1 else 0),
      nlinks := s.nlinks + (if c.alive then c.links.countP (Shown glob) else 0) } := by
  obtain ⟨al, cn, ls⟩ := c
  cases al
  · simp [visit, Used]
  · cases glob with
    | none =>
      have : ls.countP (Shown none) = ls.length := List.countP_eq_length.mpr fun a _ => rfl
      simp [visit, Used, this]
    | some g =>
      have e : (matching g ls = 0) ↔ ls.any (Shown (some g)) = false := by
        rw [matching_count, List.countP_eq_zero]
        simp
      simp only [visit, Used]
      by_cases h : matching g ls = 0
      · have h1 := e.mp h
        rw [matching_count] at h
        simp [h1, h, matching_count]
      · have h1 : ls.any (Shown (some g)) = true := by
          cases h2 : ls.any (Shown (some g))
          · exact absurd (e.mpr h2) h
          · rfl
        simp only [h, if_false, h1]
        simp [matching_count]

/-- dbpvar counts the channels in use by records of that name, how many of these are connected, and their links. -/
theorem C114_dbpvar (glob : Option (Str → Bool)) (cs : List Chan) : dbpvar glob cs =
    { nconn := cs.countP (fun c => Used glob c && c.connected), nchans := cs.countP (Used glob),
      nlinks := ((cs.filter (·.alive)).map fun c => c.links.countP (Shown glob)).sum } := by
  have key : ∀ (cs : List Chan) (s : Sums), cs.foldl (visit glob) s =
      { nconn := s.nconn + cs.countP (fun c => Used glob c && c.connected), nchans := s.nchans + cs.countP (Used glob),
        nlinks := s.nlinks + ((cs.filter (·.alive)).map fun c => c.links.countP (Shown glob)).sum } := by
    intro cs
    induction cs with
    | nil => intro s; simp
    | cons c cs ih =>
      intro s
      rw [List.foldl_cons, ih, visit_eq]
      simp only [List.countP_cons, List.filter_cons]
      congr 1
      · omega
      · omega
      · cases c.alive <;> simp <;> omega
  simpa [dbpvar] using key cs {}

/-- It never says that more channels are connected than there are. -/
theorem C114_dbpvar_le (glob : Option (Str → Bool)) (cs : List Chan) : (dbpvar glob cs).nconn ≤ (dbpvar glob cs).nchans := by
  rw [C114_dbpvar]
  exact List.countP_mono_left fun c _ h => by simp at h; exact h.1

/-- Each link which is counted belongs to a channel which is counted: without links there are no channels, if a name is given. -/
theorem C114_dbpvar_links (g : Str → Bool) (cs : List Chan) : (dbpvar (some g) cs).nchans ≤ (dbpvar (some g) cs).nlinks := by
  rw [C114_dbpvar]
  simp only
  induction cs with
  | nil => simp
  | cons c cs ih =>
    rw [List.countP_cons, List.filter_cons]
    by_cases h : Used (some g) c = true
    · have h1 : c.alive = true := by simp [Used] at h; exact h.1
      have h2 : 0 < c.links.countP (Shown (some g)) := by
        rw [List.countP_pos_iff]
        simp [Used] at h
        exact h.2
      simp only [h, if_true, h1, List.map_cons, List.sum_cons]
      omega
    · have h0 : Used (some g) c = false := by simpa using h
      simp only [h0]
      cases c.alive
      · simpa using ih
      · simp only [if_true, List.map_cons, List.sum_cons]
        simp
        omega

/-! ### the hypotheses are met -/

def before : SMap Nat := [([0x41], 3), ([0x42], 1), ([0x44], 2)]
def after : SMap Nat := [([0x41], 3), ([0x42], 4), ([0x43], 1)]

example : IsMap before ∧ IsMap after := by unfold IsMap before after; constructor <;> decide
example : refDiff before after = [([0x42], 3), ([0x43], 1), ([0x44], -2)] := by simp [refDiff, coIterate, before, after, SMap.insert, strLt]
example : dbpvar (some (· == [0x61])) [⟨true, true, [some [0x61], some [0x62]]⟩, ⟨true, true, [some [0x62]]⟩, ⟨false, true, [some [0x61]]⟩, ⟨true, false, [some [0x61], none]⟩] =
    ⟨1, 2, 2⟩ := by decide

end Pvxs.Props.Shell
