import Verif.Spec.GroupLoad
import Verif.Props.GroupJson
/-
C95: files with group definitions.
-/
namespace Pvxs.Props.GLoad
open Pvxs.GLoad Spec.GLoad
open Spec.GJson (bytes Doc text texts Recorded allSaid IsWarning)
open Pvxs.GJson (Proc Msg)

/-- an entry of the list -/
def entry (x : Str × Str × Doc) : JFile := { fname := x.1, macros := x.2.1, text := text x.2.2 }

theorem erase_append (a b : List JFile) (f m : Str) : erase (a ++ b) f m = erase a f m ++ erase b f m := by
  simp [erase]

/-- one call changes a list as asked -/
theorem call_ask (fs : List JFile) (a : Ask) (h : a.Good) : (dbLoadGroup fs a.cmd.name a.cmd.macros a.cmd.text).1 =
    match a with
    | .load f m d => erase fs f m ++ [entry (f, m, d)]
    | .remove f m => erase fs f m
    | .removeAll => []
    | .noFile _ _ => fs := by
  have star : bytes "*" = [0x2a] := rfl
  cases a with
  | load f m d =>
    obtain ⟨h1, h2, h3⟩ := h
    cases f with
    | nil => exact absurd rfl h1
    | cons c cs =>
      simp only [List.head?_cons, ne_eq, Option.some.injEq] at h2
      rw [star] at h3
      simp only [dbLoadGroup, Ask.cmd, if_neg h2, loadOrRemove, if_neg h3, Bool.false_eq_true, if_false, entry]
  | remove f m =>
    have h : f ≠ [0x2a] := h
    simp [dbLoadGroup, Ask.cmd, bytes, loadOrRemove, h]
  | removeAll => rfl
  | noFile f m =>
    obtain ⟨h1, h2, h3⟩ := h
    cases f with
    | nil => exact absurd rfl h1
    | cons c cs =>
      simp only [List.head?_cons, ne_eq, Option.some.injEq] at h2
      rw [star] at h3
      simp only [dbLoadGroup, Ask.cmd, if_neg h2, loadOrRemove, if_neg h3, Bool.false_eq_true, if_false]

/-- nothing in the list ends this entry -/
def alive (as : List Ask) (f m : Str) : Bool := decide (¬ ∃ a ∈ as, a.Ends f m)

theorem alive_cons (a : Ask) (as : List Ask) (f m : Str) : alive (a :: as) f m = (decide (¬ a.Ends f m) && alive as f m) := by
  unfold alive
  rw [← Bool.decide_and, decide_eq_decide]
  constructor
  · intro h
    exact ⟨fun e => h ⟨a, List.mem_cons_self, e⟩, fun ⟨b, hb, e⟩ => h ⟨b, List.mem_cons_of_mem _ hb, e⟩⟩
  · rintro ⟨h1, h2⟩ ⟨b, hb, e⟩
    rcases List.mem_cons.1 hb with rfl | hb
    · exact h1 e
    · exact h2 ⟨b, hb, e⟩

theorem not_same (x : JFile) (f m : Str) : (!(x.fname == f && x.macros == m)) = decide (¬ (f = x.fname ∧ m = x.macros)) := by
  have e : (f = x.fname ∧ m = x.macros) ↔ (x.fname = f ∧ x.macros = m) := ⟨fun h => ⟨h.1.symm, h.2.symm⟩, fun h => ⟨h.1.symm, h.2.symm⟩⟩
  have e' : decide (¬ (f = x.fname ∧ m = x.macros)) = decide (¬ (x.fname = f ∧ x.macros = m)) := decide_eq_decide.2 (not_congr e)
  rw [e']
  by_cases h1 : x.fname = f <;> by_cases h2 : x.macros = m <;> simp [h1, h2]

theorem ends_load (f m : Str) (d : Doc) (f' m' : Str) : (Ask.load f m d).Ends f' m' ↔ (f = f' ∧ m = m') := Iff.rfl
theorem ends_remove (f m f' m' : Str) : (Ask.remove f m).Ends f' m' ↔ (f = f' ∧ m = m') := Iff.rfl

/-- what is in the list before is there after, unless it ends -/
theorem calls_spec (as : List Ask) (h : ∀ a ∈ as, a.Good) (fs : List JFile) :
    calls fs (as.map Ask.cmd) = (fs.filter fun x => alive as x.fname x.macros) ++ (kept as).map entry := by
  induction as generalizing fs with
  | nil =>
    have : (fun x : JFile => alive [] x.fname x.macros) = fun _ => true := by funext x; simp [alive]
    rw [this]
    have e : fs.filter (fun _ => true) = fs := List.filter_eq_self.2 (by simp)
    rw [e]
    simp [calls, kept]
  | cons a as ih =>
    have e : calls fs ((a :: as).map Ask.cmd) = calls (dbLoadGroup fs a.cmd.name a.cmd.macros a.cmd.text).1 (as.map Ask.cmd) := rfl
    rw [e, call_ask fs a (h a (by simp)), ih (fun a ha => h a (by simp [ha]))]
    simp only [alive_cons]
    cases a with
    | load f m d =>
      simp only [List.filter_append, kept, erase, List.filter_filter, List.append_assoc, not_same, ends_load]
      congr 1
      · apply List.filter_congr
        intro x _
        exact Bool.and_comm _ _
      · by_cases hk : ∃ a ∈ as, a.Ends f m
        · have : alive as f m = false := by unfold alive; exact decide_eq_false (fun h => h hk)
          simp only [if_pos hk, entry, List.filter_cons, this]
          simp
        · have : alive as f m = true := by unfold alive; exact decide_eq_true hk
          simp only [if_neg hk, entry, List.filter_cons, this]
          simp [entry]
    | remove f m =>
      simp only [kept, erase, List.filter_filter, not_same, ends_remove]
      congr 1
      apply List.filter_congr
      intro x _
      exact Bool.and_comm _ _
    | removeAll =>
      simp [kept, Ask.Ends]
    | noFile f m =>
      simp [kept, Ask.Ends]

/-- C95: the files which are read are those which were loaded by calls of dbLoadGroup(), and not removed or loaded again, in this order -/
theorem C95_files (as : List Ask) (h : ∀ a ∈ as, a.Good) : (takeFiles (calls [] (as.map Ask.cmd))).2 = texts (docs (kept as)) := by
  rw [calls_spec as h]
  simp [takeFiles, texts, docs, entry, Function.comp_def]

/-- C95: the groups are those of the records and of these files -/
theorem C95_groups (records : List (Str × Doc)) (hr : ∀ x ∈ records, Spec.GJson.Good x.2) (as : List Ask) (h : ∀ a ∈ as, a.Good)
    (hd : ∀ f m d, .load f m d ∈ as → Spec.GJson.Good d) :
    ∃ q ms, process (texts records) (calls [] (as.map Ask.cmd)) = .ok (q, ms) ∧ Recorded (allSaid records (docs (kept as))) q.groups ∧
      ∀ m ∈ ms, IsWarning m := by
  have hk : ∀ x ∈ docs (kept as), Spec.GJson.Good x.2 := by
    have : ∀ (as : List Ask) (x : Str × Str × Doc), x ∈ kept as → .load x.1 x.2.1 x.2.2 ∈ as := by
      intro as
      induction as with
      | nil => intro x hx; simp [kept] at hx
      | cons a as ih =>
        intro x hx
        cases a with
        | load f m d =>
          simp only [kept] at hx
          split at hx
          · exact List.mem_cons_of_mem _ (ih x hx)
          · rcases List.mem_cons.1 hx with rfl | hx
            · exact List.mem_cons_self
            · exact List.mem_cons_of_mem _ (ih x hx)
        | _ => exact List.mem_cons_of_mem _ (ih x hx)
    intro x hx
    simp only [docs, List.mem_map] at hx
    obtain ⟨y, hy, rfl⟩ := hx
    exact hd _ _ _ (this as y hy)
  obtain ⟨p, ms, q, ms', h1, h2, h3, -, h4⟩ := Props.GJson.C94_recorded records (docs (kept as)) hr hk
  refine ⟨q, ms ++ ms', ?_, h3, h4⟩
  unfold process
  rw [C95_files as h]
  simp only [h1, h2]

/-- two files, one of which is loaded with two sets of macros, one of those being removed -/
def exAsk : List Ask :=
  [.load (bytes "a.json") (bytes "N=1") [(bytes "g1", [.field (bytes "x") [.channel (bytes "r1")]])],
   .load (bytes "a.json") (bytes "N=2") [(bytes "g2", [.field (bytes "x") [.channel (bytes "r2")]])],
   .load (bytes "b.json") [] [(bytes "g2", [.field (bytes "y") [.channel (bytes "r3")]])],
   .noFile (bytes "c.json") [],
   .remove (bytes "a.json") (bytes "N=1")]

example : (∀ a ∈ exAsk, a.Good) ∧ (kept exAsk).length = 2 ∧ (kept exAsk).map (·.1) = [bytes "a.json", bytes "b.json"] ∧
    (∀ f m d, .load f m d ∈ exAsk → Spec.GJson.Good d) := by
  refine ⟨?_, by decide, by decide, ?_⟩
  · simp [exAsk, Ask.Good, FileName, bytes]
  · intro f m d h
    simp only [exAsk, List.mem_cons, List.not_mem_nil, or_false, Ask.load.injEq, reduceCtorEq, false_or] at h
    rcases h with ⟨_, _, rfl⟩ | ⟨_, _, rfl⟩ | ⟨_, _, rfl⟩ <;> simp [Spec.GJson.Good, Spec.GJson.Item.Good, Spec.GJson.Opt.Good, bytes]

/-- a file which can not be opened, and no name: the list stays as it is, and the call fails -/
theorem C95_no_file (fs : List JFile) (f m : Str) (h : FileName f) : dbLoadGroup fs f m none = (fs, false) ∧ dbLoadGroup fs [] m none = (fs, false) := by
  obtain ⟨h1, h2, h3⟩ := h
  cases f with
  | nil => exact absurd rfl h1
  | cons c cs =>
    simp only [List.head?_cons, ne_eq, Option.some.injEq] at h2
    have h3 : c :: cs ≠ [0x2a] := h3
    simp [dbLoadGroup, if_neg h2, loadOrRemove, h3]

/-- C95 fails: what is loaded by the command of the shell is lost.  After any commands the list of files is empty, -/
theorem C95_shell_empty (fs : List JFile) (c : Cmd) (cs : List Cmd) : shell fs (c :: cs) = [] := by
  have : ∀ (cs : List Cmd), shell [] cs = [] := by
    intro cs
    induction cs with
    | nil => rfl
    | cons c cs ih => exact ih
  exact this cs

/-- and the groups are those of the records only -/
theorem C95_shell_lost (records : List (Str × Pvxs.GJson.Text)) (fs : List JFile) (c : Cmd) (cs : List Cmd) :
    process records (shell fs (c :: cs)) = process records [] := by
  rw [C95_shell_empty]

/-- for instance the group of one file, loaded in both ways -/
example : ∃ q ms, process [] (calls [] [(Ask.load (bytes "b.json") [] [(bytes "g", [.field (bytes "y") [.channel (bytes "r3")]])]).cmd]) = .ok (q, ms) ∧
      q.groups.length = 1 ∧
    process [] (shell [] [(Ask.load (bytes "b.json") [] [(bytes "g", [.field (bytes "y") [.channel (bytes "r3")]])]).cmd]) = .ok ({}, []) :=
  ⟨_, _, rfl, by decide, rfl⟩

/-- C95 fails: "*" without the sign is not documented, it removes all files -/
theorem C95_star (fs : List JFile) (m : Str) (t : Option Pvxs.GJson.Text) : dbLoadGroup fs (bytes "*") m t = ([], true) := rfl

end Pvxs.Props.GLoad
