import Verif.Spec.GroupGet
/-! Property C91 -/
namespace Pvxs.Props.GroupGet
open Pvxs Pvxs.GroupGet Pvxs.Spec.GroupGet
open Pvxs.Group (MapType)
open Pvxs.GroupMon (Part Item)

/-! ### blocks: what is done while records are locked -/

structure Block where
  recs : List Nat
  steps : List Instr

def blockProg (b : Block) : List Instr := .lock b.recs :: (b.steps ++ [.unlock])
def prog (bs : List Block) : List Instr := bs.flatMap blockProg ++ [.reply]

/-- what a step adds to the reply -/
def eval (E : Env) (D : Nat → Nat) : Instr → List (Item × Nat)
  | .read i p r => [(.part i p, E.data i p (D r))]
  | .set i p x => [(.part i p, x)]
  | _ => []

def bad (E : Env) (D : Nat → Nat) : Instr → Bool
  | .read i p r => E.fails i p (D r)
  | _ => false

/-- only reads of locked records -/
def Inner (recs : List Nat) : Instr → Prop
  | .read _ _ r => r ∈ recs
  | .set _ _ _ => True
  | _ => False

def Good (b : Block) : Prop := ∀ c ∈ b.steps, Inner b.recs c

/-- the block was done, all of it while the records were as in some D -/
def Done (E : Env) (P : (Nat → Nat) → Prop) (b : Block) (o : List (Item × Nat)) : Prop :=
  ∃ D, P D ∧ o = b.steps.flatMap (eval E D) ∧ ∀ c ∈ b.steps, bad E D c = false

inductive AllDone (E : Env) (P : (Nat → Nat) → Prop) : List Block → List (List (Item × Nat)) → Prop where
  | nil : AllDone E P [] []
  | cons {bs os b o} : Done E P b o → AllDone E P bs os → AllDone E P (b :: bs) (o :: os)

theorem AllDone.snoc {E P bs os b o} (h : AllDone E P bs os) (hd : Done E P b o) : AllDone E P (bs ++ [b]) (os ++ [o]) := by
  induction h with
  | nil => exact .cons hd .nil
  | cons h1 _ ih => exact .cons h1 ih

theorem Done.mono {E P Q b o} (h : Done E P b o) (hpq : ∀ D, P D → Q D) : Done E Q b o := by
  obtain ⟨D, h1, h2⟩ := h
  exact ⟨D, hpq D h1, h2⟩

theorem AllDone.mono {E P Q bs os} (h : AllDone E P bs os) (hpq : ∀ D, P D → Q D) : AllDone E Q bs os := by
  induction h with
  | nil => exact .nil
  | cons hd _ ih => exact .cons (hd.mono hpq) ih

/-- some step failed -/
def Failed (E : Env) (P : (Nat → Nat) → Prop) (bs : List Block) : Prop := ∃ D, P D ∧ ∃ b ∈ bs, ∃ c ∈ b.steps, bad E D c = true

inductive Inv (E : Env) (bs : List Block) (hd : List (Item × Nat)) (P : (Nat → Nat) → Prop) (s : St) : Prop where
  | between {done rest os} : bs = done ++ rest → AllDone E P done os → s.todo = prog rest → s.locked = [] → s.out = hd ++ os.flatten → s.sent = [] → Inv E bs hd P s
  | inside {done b rest os pre post} : bs = done ++ b :: rest → AllDone E P done os → b.steps = pre ++ post → s.todo = post ++ .unlock :: prog rest → s.locked = b.recs →
      s.out = hd ++ os.flatten ++ pre.flatMap (eval E s.db) → (∀ c ∈ pre, bad E s.db c = false) → s.sent = [] → Inv E bs hd P s
  | ended {os} : AllDone E P bs os → s.todo = [] → s.locked = [] → s.sent = [.value (hd ++ os.flatten)] → Inv E bs hd P s
  | failing : Failed E P bs → s.todo = [.unlock, .error] → s.sent = [] → Inv E bs hd P s
  | failed : Failed E P bs → s.todo = [.error] → s.locked = [] → s.sent = [] → Inv E bs hd P s
  | error : Failed E P bs → s.todo = [] → s.locked = [] → s.sent = [.error] → Inv E bs hd P s

theorem Failed.mono {E P Q bs} (h : Failed E P bs) (hpq : ∀ D, P D → Q D) : Failed E Q bs := by
  obtain ⟨D, h1, h2⟩ := h
  exact ⟨D, hpq D h1, h2⟩

theorem flatMap_same {α β : Type} (f g : α → List β) (l : List α) (h : ∀ c ∈ l, f c = g c) : l.flatMap f = l.flatMap g := by
  induction l with
  | nil => rfl
  | cons a l ih =>
    rw [List.flatMap_cons, List.flatMap_cons, h a List.mem_cons_self, ih (fun c hc => h c (List.mem_cons_of_mem _ hc))]

/-- what is read of the locked records does not change -/
theorem eval_locked (E : Env) (recs : List Nat) (D D' : Nat → Nat) (hD : ∀ r ∈ recs, D' r = D r) (c : Instr) (hc : Inner recs c) :
    eval E D' c = eval E D c ∧ bad E D' c = bad E D c := by
  cases c <;> simp only [eval, bad, and_self]
  case read i p r => rw [hD r hc]; exact ⟨rfl, rfl⟩

theorem inv_write {E bs hd P Q} {s : St} (hb : ∀ b ∈ bs, Good b) (h : Inv E bs hd P s) (hpq : ∀ D, P D → Q D) (r x : Nat) :
    Inv E bs hd Q (s.step E (.write r x)) := by
  by_cases hr : r ∈ s.locked
  · have e : s.step E (.write r x) = s := by simp only [St.step, if_pos hr]
    rw [e]
    cases h with
    | between h1 h2 h3 h4 h5 h6 => exact .between h1 (h2.mono hpq) h3 h4 h5 h6
    | inside h1 h2 h3 h4 h5 h6 h7 h8 => exact .inside h1 (h2.mono hpq) h3 h4 h5 h6 h7 h8
    | ended h1 h2 h3 h4 => exact .ended (h1.mono hpq) h2 h3 h4
    | failing h1 h2 h3 => exact .failing (h1.mono hpq) h2 h3
    | failed h1 h2 h3 h4 => exact .failed (h1.mono hpq) h2 h3 h4
    | error h1 h2 h3 h4 => exact .error (h1.mono hpq) h2 h3 h4
  · have e : s.step E (.write r x) = { s with db := fun q => if q = r then x else s.db q } := by simp only [St.step, if_neg hr]
    rw [e]
    cases h with
    | between h1 h2 h3 h4 h5 h6 => exact .between h1 (h2.mono hpq) h3 h4 h5 h6
    | @inside done b rest os pre post h1 h2 h3 h4 h5 h6 h7 h8 =>
      have hg : ∀ c ∈ pre, Inner b.recs c := fun c hc => hb b (by rw [h1]; simp) c (by rw [h3]; simp [hc])
      have hD : ∀ q ∈ b.recs, (if q = r then x else s.db q) = s.db q := by
        intro q hq
        rw [if_neg]
        intro hqr
        rw [h5, ← hqr] at hr
        exact hr hq
      have hk : ∀ c ∈ pre, _ := fun c hc => eval_locked E b.recs s.db (fun q => if q = r then x else s.db q) hD c (hg c hc)
      refine .inside h1 (h2.mono hpq) h3 h4 h5 ?_ (fun c hc => by rw [(hk c hc).2]; exact h7 c hc) h8
      show s.out = _
      rw [h6]
      congr 1
      exact flatMap_same _ _ _ (fun c hc => (hk c hc).1.symm)
    | ended h1 h2 h3 h4 => exact .ended (h1.mono hpq) h2 h3 h4
    | failing h1 h2 h3 => exact .failing (h1.mono hpq) h2 h3
    | failed h1 h2 h3 h4 => exact .failed (h1.mono hpq) h2 h3 h4
    | error h1 h2 h3 h4 => exact .error (h1.mono hpq) h2 h3 h4

theorem step_get (E : Env) (s : St) {c : Instr} {k : List Instr} (h : s.todo = c :: k) : s.step E .get = s.exec E c k := by
  simp only [St.step, h]

theorem step_idle (E : Env) (s : St) (h : s.todo = []) : s.step E .get = s := by
  simp only [St.step, h]

theorem inv_get {E bs hd P Q} {s : St} (hb : ∀ b ∈ bs, Good b) (h : Inv E bs hd P s) (hpq : ∀ D, P D → Q D) (hs : Q s.db) :
    Inv E bs hd Q (s.step E .get) := by
  cases h with
  | @between done rest os h1 h2 h3 h4 h5 h6 =>
    cases rest with
    | nil =>
      rw [step_get E s (c := .reply) (k := []) (by rw [h3]; rfl)]
      rw [List.append_nil] at h1
      subst h1
      exact .ended (h2.mono hpq) rfl h4 (by simp [St.exec, h5, h6])
    | cons b rest =>
      rw [step_get E s (c := .lock b.recs) (k := b.steps ++ .unlock :: prog rest) (by rw [h3]; simp [prog, blockProg])]
      exact .inside (pre := []) (post := b.steps) h1 (h2.mono hpq) rfl rfl rfl (by simp [St.exec, h5]) (by simp) h6
  | @inside done b rest os pre post h1 h2 h3 h4 h5 h6 h7 h8 =>
    cases post with
    | nil =>
      rw [step_get E s (c := .unlock) (k := prog rest) (by rw [h4]; rfl)]
      rw [List.append_nil] at h3
      refine .between (done := done ++ [b]) (os := os ++ [pre.flatMap (eval E s.db)]) (by rw [h1]; simp) ((h2.mono hpq).snoc ⟨s.db, hs, by rw [h3], by rw [h3]; exact h7⟩) rfl rfl
        (by simp [St.exec, h6]) h8
    | cons c post =>
      have hc : Inner b.recs c := hb b (by rw [h1]; simp) c (by rw [h3]; simp)
      rw [step_get E s (c := c) (k := post ++ .unlock :: prog rest) (by rw [h4]; rfl)]
      cases c with
      | read i p r =>
        by_cases hf : E.fails i p (s.db r) = true
        · simp only [St.exec, if_pos hf]
          exact .failing ⟨s.db, hs, b, by rw [h1]; simp, .read i p r, by rw [h3]; simp, hf⟩ rfl h8
        · simp only [St.exec, if_neg hf]
          refine .inside (pre := pre ++ [.read i p r]) (post := post) h1 (h2.mono hpq) (by rw [h3]; simp) rfl h5 (by simp [h6, eval]) ?_ h8
          intro c hc
          rcases List.mem_append.1 hc with hc | hc
          · exact h7 c hc
          · rw [List.mem_singleton] at hc; subst hc; simpa [bad] using hf
      | set i p x =>
        simp only [St.exec]
        refine .inside (pre := pre ++ [.set i p x]) (post := post) h1 (h2.mono hpq) (by rw [h3]; simp) rfl h5 (by simp [h6, eval]) ?_ h8
        intro c hc
        rcases List.mem_append.1 hc with hc | hc
        · exact h7 c hc
        · rw [List.mem_singleton] at hc; subst hc; rfl
      | lock _ => cases hc
      | unlock => cases hc
      | reply => cases hc
      | error => cases hc
  | ended h1 h2 h3 h4 => rw [step_idle E s h2]; exact .ended (h1.mono hpq) h2 h3 h4
  | failing h1 h2 h3 => rw [step_get E s h2]; exact .failed (h1.mono hpq) rfl rfl h3
  | failed h1 h2 h3 h4 => rw [step_get E s h2]; exact .error (h1.mono hpq) rfl h3 (by simp [St.exec, h4])
  | error h1 h2 h3 h4 => rw [step_idle E s h2]; exact .error (h1.mono hpq) h2 h3 h4

/-! ### the program, in blocks -/

def eachBlocks (E : Env) (i : Nat) : List GField → List Block
  | [] => []
  | f :: fs => (match f.chan with
    | none => []
    | some r => [⟨[r], fieldSteps E i f⟩]) ++ eachBlocks E (i + 1) fs

def blocks (E : Env) (fs : List GField) (atomic : Bool) : List Block :=
  if atomic then [⟨records fs, allSteps E 0 fs⟩] else eachBlocks E 0 fs

theorem eachSteps_blocks (E : Env) (fs : List GField) (i : Nat) : eachSteps E i fs = (eachBlocks E i fs).flatMap blockProg := by
  induction fs generalizing i with
  | nil => rfl
  | cons f fs ih =>
    simp only [eachSteps, eachBlocks, List.flatMap_append, ← ih]
    congr 1
    cases f.chan <;> simp [blockProg]

theorem program_blocks (E : Env) (fs : List GField) (atomic : Bool) : program E fs atomic = prog (blocks E fs atomic) := by
  cases atomic with
  | true => simp [program, blocks, prog, blockProg]
  | false => simp [program, blocks, prog, eachSteps_blocks]

theorem fieldSteps_inner (E : Env) (i : Nat) (f : GField) (recs : List Nat) (h : ∀ r, f.chan = some r → r ∈ recs) : ∀ c ∈ fieldSteps E i f, Inner recs c := by
  intro c hc
  unfold fieldSteps at hc
  repeat' split at hc
  all_goals simp at hc
  all_goals (rename_i hch)
  all_goals first
    | (subst hc; first | trivial | exact h _ hch)
    | (rcases hc with rfl | rfl | rfl | rfl <;> first | trivial | exact h _ hch)

theorem allSteps_inner (E : Env) (recs : List Nat) (fs : List GField) (i : Nat) (h : ∀ r ∈ records fs, r ∈ recs) : ∀ c ∈ allSteps E i fs, Inner recs c := by
  induction fs generalizing i with
  | nil => simp [allSteps]
  | cons f fs ih =>
    intro c hc
    simp only [allSteps, List.mem_append] at hc
    rcases hc with hc | hc
    · exact fieldSteps_inner E i f recs (fun r hr => h r (by simp [records, List.filterMap_cons, hr])) c hc
    · refine ih (i + 1) (fun r hr => h r ?_) c hc
      simp only [records, List.filterMap_cons]
      cases f.chan
      · exact hr
      · exact List.mem_cons_of_mem _ hr

theorem eachBlocks_good (E : Env) (fs : List GField) (i : Nat) : ∀ b ∈ eachBlocks E i fs, Good b := by
  induction fs generalizing i with
  | nil => simp [eachBlocks]
  | cons f fs ih =>
    intro b hb
    simp only [eachBlocks, List.mem_append] at hb
    rcases hb with hb | hb
    · cases hch : f.chan with
      | none => simp [hch] at hb
      | some r =>
        simp only [hch, List.mem_singleton] at hb
        subst hb
        exact fieldSteps_inner E i f [r] (fun q hq => by rw [hch] at hq; injection hq with hq; simp [hq])
    · exact ih (i + 1) b hb

theorem blocks_good (E : Env) (fs : List GField) (atomic : Bool) : ∀ b ∈ blocks E fs atomic, Good b := by
  cases atomic with
  | true =>
    intro b hb
    simp only [blocks, if_true, List.mem_singleton] at hb
    subst hb
    exact allSteps_inner E _ fs 0 (fun _ h => h)
  | false => exact eachBlocks_good E fs 0

/-- the records at some time so far -/
def Seen (E : Env) (fs : List GField) (atomic : Bool) (db : Nat → Nat) (ts : List Turn) (D : Nat → Nat) : Prop :=
  ∃ k, k ≤ ts.length ∧ D = (run E fs atomic db (ts.take k)).db

theorem seen_snoc {E fs atomic db ts D} (t : Turn) (h : Seen E fs atomic db ts D) : Seen E fs atomic db (ts ++ [t]) D := by
  obtain ⟨k, h1, h2⟩ := h
  exact ⟨k, by simp; omega, by rw [List.take_append_of_le_length h1]; exact h2⟩

theorem run_inv (E : Env) (fs : List GField) (atomic : Bool) (db : Nat → Nat) (ts : List Turn) :
    Inv E (blocks E fs atomic) [(.options, if atomic then 1 else 0)] (Seen E fs atomic db ts) (run E fs atomic db ts) := by
  obtain ⟨us, rfl⟩ : ∃ us, ts = us.reverse := ⟨ts.reverse, by simp⟩
  induction us with
  | nil => exact .between (done := []) (os := []) rfl .nil (program_blocks E fs atomic) rfl rfl rfl
  | cons t us ih =>
    rw [List.reverse_cons]
    have e : run E fs atomic db (us.reverse ++ [t]) = (run E fs atomic db us.reverse).step E t := by simp [run]
    rw [e]
    cases t with
    | get =>
      exact inv_get (blocks_good E fs atomic) ih (fun D => seen_snoc .get)
        ⟨us.length, by simp, by rw [List.take_append_of_le_length (by simp)]; rw [List.take_of_length_le (by simp)]⟩
    | write r x => exact inv_write (blocks_good E fs atomic) ih (fun D => seen_snoc _) r x

/-! ### what the steps of a field show -/

theorem shown_iff (t : MapType) (p : Part) : Shown t p ↔ t = .scalar ∨ (t = .plain ∧ p = .value) ∨ (t = .any ∧ p = .value) ∨ (t = .metadata ∧ p = .alarm) ∨ (t = .const ∧ p = .value) := by
  constructor
  · intro h
    cases h <;> simp
  · rintro (rfl | ⟨rfl, rfl⟩ | ⟨rfl, rfl⟩ | ⟨rfl, rfl⟩ | ⟨rfl, rfl⟩)
    · exact .scalar p
    · exact .plain
    · exact .any
    · exact .metadata
    · exact .const

theorem mem_field (E : Env) (D : Nat → Nat) (fs : List GField) (i : Nat) (f : GField) (hf : fs[i]? = some f) (hl : f.type ≠ .const → f.type ≠ .struct → f.chan ≠ none)
    (j : Nat) (p : Part) (x : Nat) :
    (Item.part j p, x) ∈ (fieldSteps E i f).flatMap (eval E D) ↔ j = i ∧ Is E fs D i p x := by
  have key : Is E fs D i p x ↔ (f.type = .const ∧ p = .value ∧ x = f.cval) ∨ (f.type = .scalar ∧ p = .form ∧ x = E.form i) ∨
      (f.type ≠ .const ∧ Shown f.type p ∧ p ≠ .form ∧ ∃ r, f.chan = some r ∧ x = E.data i p (D r)) := by
    constructor
    · intro h
      cases h with
      | const h1 h2 h3 h4 => rw [hf] at h1; cases h1; exact .inl ⟨h2, h3, h4⟩
      | form h1 h2 h3 h4 => rw [hf] at h1; cases h1; exact .inr (.inl ⟨h2, h3, h4⟩)
      | record h1 h2 h3 h4 h5 h6 => rw [hf] at h1; cases h1; exact .inr (.inr ⟨h2, h3, h4, _, h5, h6⟩)
    · rintro (⟨h2, h3, h4⟩ | ⟨h2, h3, h4⟩ | ⟨h2, h3, h4, r, h5, h6⟩)
      · exact .const hf h2 h3 h4
      · exact .form hf h2 h3 h4
      · exact .record hf h2 h3 h4 h5 h6
  rw [key]
  rw [shown_iff]
  obtain ⟨t, ch, cv⟩ := f
  unfold fieldSteps
  cases t <;> cases ch <;> first
    | (cases p <;> simp [eval] <;> done)
    | exact absurd rfl (hl (fun h => nomatch h) (fun h => nomatch h))

theorem bad_field (E : Env) (D : Nat → Nat) (i : Nat) (f : GField) :
    (∃ c ∈ fieldSteps E i f, bad E D c = true) ↔ ∃ p r, f.type ≠ .const ∧ Shown f.type p ∧ p ≠ .form ∧ f.chan = some r ∧ E.fails i p (D r) = true := by
  obtain ⟨t, ch, cv⟩ := f
  constructor
  · rintro ⟨c, hc, hb⟩
    unfold fieldSteps at hc
    cases t <;> cases ch <;> simp at hc
    all_goals first
      | (subst hc; simp only [bad, Bool.false_eq_true] at hb)
      | (rcases hc with rfl | rfl | rfl | rfl <;> simp only [bad, Bool.false_eq_true] at hb)
    all_goals exact ⟨_, _, by simp, by first | exact .scalar _ | exact .plain | exact .any | exact .metadata, by simp, rfl, hb⟩
  · rintro ⟨p, r, h1, h2, h3, h4, h5⟩
    simp only at h1 h2 h4
    subst h4
    refine ⟨.read i p r, ?_, h5⟩
    unfold fieldSteps
    cases h2
    case scalar => cases p <;> simp at h3 ⊢
    case const => exact absurd rfl h1
    all_goals simp

/-! ### all fields at once -/

theorem drop_next {α : Type} {all : List α} {i : Nat} {f : α} {fs : List α} (h : all.drop i = f :: fs) : all[i]? = some f ∧ all.drop (i + 1) = fs := by
  constructor
  · rw [← List.head?_drop, h]; rfl
  · rw [← List.tail_drop, h]; rfl

theorem drop_end {α : Type} {all : List α} {i j : Nat} (h : all.drop i = []) (hj : i ≤ j) : all[j]? = none := by
  rw [List.drop_eq_nil_iff] at h
  exact List.getElem?_eq_none (by omega)

theorem loaded_at {fs : List GField} (hl : Loaded fs) {i : Nat} {f : GField} (h : fs[i]? = some f) : f.type ≠ .const → f.type ≠ .struct → f.chan ≠ none :=
  hl f (List.mem_of_getElem? h)

theorem is_some {E : Env} {fs : List GField} {D : Nat → Nat} {i : Nat} {p : Part} {x : Nat} (h : Is E fs D i p x) : ∃ f, fs[i]? = some f := by
  cases h with
  | const h => exact ⟨_, h⟩
  | form h => exact ⟨_, h⟩
  | record h => exact ⟨_, h⟩

theorem mem_all (E : Env) (D : Nat → Nat) (all : List GField) (hl : Loaded all) (fs : List GField) (i : Nat) (hd : all.drop i = fs) (j : Nat) (p : Part) (x : Nat) :
    (Item.part j p, x) ∈ (allSteps E i fs).flatMap (eval E D) ↔ i ≤ j ∧ Is E all D j p x := by
  induction fs generalizing i with
  | nil =>
    simp only [allSteps, List.flatMap_nil, List.not_mem_nil, false_iff, not_and]
    intro hj h
    obtain ⟨f, hf⟩ := is_some h
    rw [drop_end hd hj] at hf
    cases hf
  | cons f fs ih =>
    obtain ⟨h1, h2⟩ := drop_next hd
    rw [allSteps, List.flatMap_append, List.mem_append, mem_field E D all i f h1 (loaded_at hl h1), ih (i + 1) h2]
    constructor
    · rintro (⟨rfl, h⟩ | ⟨h, h'⟩)
      · exact ⟨Nat.le_refl _, h⟩
      · exact ⟨by omega, h'⟩
    · rintro ⟨h, h'⟩
      rcases Nat.eq_or_lt_of_le h with rfl | h
      · exact .inl ⟨rfl, h'⟩
      · exact .inr ⟨h, h'⟩

theorem bad_all (E : Env) (D : Nat → Nat) (all : List GField) (fs : List GField) (i : Nat) (hd : all.drop i = fs) (j : Nat) (hj : i ≤ j) (f : GField) (hf : all[j]? = some f) :
    ∀ c ∈ fieldSteps E j f, c ∈ allSteps E i fs := by
  induction fs generalizing i with
  | nil => rw [drop_end hd hj] at hf; cases hf
  | cons g fs ih =>
    obtain ⟨h1, h2⟩ := drop_next hd
    intro c hc
    rw [allSteps, List.mem_append]
    rcases Nat.eq_or_lt_of_le hj with rfl | h
    · rw [h1] at hf; cases hf; exact .inl hc
    · exact .inr (ih (i + 1) h2 (by omega) c hc)

theorem step_of_all (E : Env) (all : List GField) (fs : List GField) (i : Nat) (hd : all.drop i = fs) (c : Instr) (hc : c ∈ allSteps E i fs) :
    ∃ j f, all[j]? = some f ∧ c ∈ fieldSteps E j f := by
  induction fs generalizing i with
  | nil => cases hc
  | cons g fs ih =>
    obtain ⟨h1, h2⟩ := drop_next hd
    rw [allSteps, List.mem_append] at hc
    rcases hc with hc | hc
    · exact ⟨i, g, h1, hc⟩
    · exact ih (i + 1) h2 hc

theorem step_of_each (E : Env) (all : List GField) (fs : List GField) (i : Nat) (hd : all.drop i = fs) (b : Block) (hb : b ∈ eachBlocks E i fs) (c : Instr) (hc : c ∈ b.steps) :
    ∃ j f, all[j]? = some f ∧ c ∈ fieldSteps E j f := by
  induction fs generalizing i with
  | nil => cases hb
  | cons g fs ih =>
    obtain ⟨h1, h2⟩ := drop_next hd
    rw [eachBlocks, List.mem_append] at hb
    rcases hb with hb | hb
    · cases hch : g.chan with
      | none => simp [hch] at hb
      | some r =>
        simp only [hch, List.mem_singleton] at hb
        subst hb
        exact ⟨i, g, h1, hc⟩
    · exact ih (i + 1) h2 hb

/-! ### each field on its own -/

theorem eval_part (E : Env) (D : Nat → Nat) (c : Instr) (x : Nat) : (Item.options, x) ∉ eval E D c := by
  cases c <;> simp [eval]

theorem flat_part (E : Env) (D : Nat → Nat) (l : List Instr) (x : Nat) : (Item.options, x) ∉ l.flatMap (eval E D) := by
  intro h
  obtain ⟨c, _, hc⟩ := List.mem_flatMap.1 h
  exact eval_part E D c x hc

theorem done_part {E P bs os} (h : AllDone E P bs os) (x : Nat) : (Item.options, x) ∉ os.flatten := by
  induction h with
  | nil => simp
  | cons hd _ ih =>
    obtain ⟨D, _, rfl, _⟩ := hd
    rw [List.flatten_cons, List.mem_append, not_or]
    exact ⟨flat_part E D _ x, ih⟩

theorem each_mem (E : Env) (P : (Nat → Nat) → Prop) (all : List GField) (hl : Loaded all) (fs : List GField) (i : Nat) (hd : all.drop i = fs) (os : List (List (Item × Nat)))
    (h : AllDone E P (eachBlocks E i fs) os) :
    (∀ j f, i ≤ j → all[j]? = some f → f.chan ≠ none → ∃ D, P D ∧ (∀ p x, (Item.part j p, x) ∈ os.flatten ↔ Is E all D j p x) ∧ ∀ c ∈ fieldSteps E j f, bad E D c = false) ∧
    (∀ j p x, (Item.part j p, x) ∈ os.flatten → i ≤ j ∧ ∃ f, all[j]? = some f ∧ f.chan ≠ none) := by
  induction fs generalizing i os with
  | nil =>
    cases h
    refine ⟨fun j f hj hf _ => ?_, by simp⟩
    rw [drop_end hd hj] at hf
    cases hf
  | cons g fs ih =>
    obtain ⟨h1, h2⟩ := drop_next hd
    rw [eachBlocks] at h
    cases hch : g.chan with
    | none =>
      simp only [hch, List.nil_append] at h
      obtain ⟨a1, a2⟩ := ih (i + 1) h2 os h
      refine ⟨fun j f hj hf hc => ?_, fun j p x hm => ?_⟩
      · rcases Nat.eq_or_lt_of_le hj with rfl | hj
        · rw [h1] at hf; cases hf; exact absurd hch hc
        · exact a1 j f hj hf hc
      · obtain ⟨b1, b2⟩ := a2 j p x hm
        exact ⟨by omega, b2⟩
    | some r =>
      simp only [hch, List.cons_append, List.nil_append] at h
      cases h with
      | @cons _ os' _ o hdone hrest =>
        obtain ⟨D, hD, rfl, hbad⟩ := hdone
        obtain ⟨a1, a2⟩ := ih (i + 1) h2 os' hrest
        have hm := mem_field E D all i g h1 (loaded_at hl h1)
        refine ⟨fun j f hj hf hc => ?_, fun j p x hx => ?_⟩
        · rcases Nat.eq_or_lt_of_le hj with rfl | hj
          · rw [h1] at hf; cases hf
            refine ⟨D, hD, fun p x => ?_, hbad⟩
            rw [List.flatten_cons, List.mem_append, hm]
            constructor
            · rintro (⟨_, h⟩ | h)
              · exact h
              · have := (a2 _ _ _ h).1; omega
            · exact fun h => .inl ⟨rfl, h⟩
          · obtain ⟨D', k1, k2, k3⟩ := a1 j f hj hf hc
            refine ⟨D', k1, fun p x => ?_, k3⟩
            rw [List.flatten_cons, List.mem_append, hm, ← k2]
            constructor
            · rintro (⟨h, _⟩ | h)
              · omega
              · exact h
            · exact .inr
        · rw [List.flatten_cons, List.mem_append, hm] at hx
          rcases hx with ⟨rfl, _⟩ | hx
          · exact ⟨Nat.le_refl _, g, h1, by rw [hch]; simp⟩
          · obtain ⟨b1, b2⟩ := a2 j p x hx
            exact ⟨by omega, b2⟩

/-! ### no part twice -/

def keyOf : Instr → List Item
  | .read i p _ => [.part i p]
  | .set i p _ => [.part i p]
  | _ => []

theorem map_eval (E : Env) (D : Nat → Nat) (l : List Instr) : (l.flatMap (eval E D)).map (·.1) = l.flatMap keyOf := by
  induction l with
  | nil => rfl
  | cons c l ih =>
    rw [List.flatMap_cons, List.map_append, ih, List.flatMap_cons]
    congr 1
    cases c <;> rfl

theorem keys_field (E : Env) (i : Nat) (f : GField) : ((fieldSteps E i f).flatMap keyOf).Nodup ∧ ∀ it ∈ (fieldSteps E i f).flatMap keyOf, ∃ p, it = .part i p := by
  obtain ⟨t, ch, cv⟩ := f
  unfold fieldSteps
  cases t <;> cases ch <;> simp [keyOf]

theorem nodup_append' {α : Type} {a b : List α} (ha : a.Nodup) (hb : b.Nodup) (h : ∀ x ∈ a, x ∉ b) : (a ++ b).Nodup :=
  List.nodup_append.2 ⟨ha, hb, fun x hx y hy e => h x hx (e ▸ hy)⟩

theorem keys_all (E : Env) (fs : List GField) (i : Nat) : ((allSteps E i fs).flatMap keyOf).Nodup ∧ ∀ it ∈ (allSteps E i fs).flatMap keyOf, ∃ j p, i ≤ j ∧ it = .part j p := by
  induction fs generalizing i with
  | nil => simp [allSteps]
  | cons f fs ih =>
    obtain ⟨a1, a2⟩ := keys_field E i f
    obtain ⟨b1, b2⟩ := ih (i + 1)
    rw [allSteps, List.flatMap_append]
    refine ⟨nodup_append' a1 b1 ?_, ?_⟩
    · intro it h1 h2
      obtain ⟨p, rfl⟩ := a2 it h1
      obtain ⟨j, q, hj, e⟩ := b2 _ h2
      injection e with e1
      omega
    · intro it h
      rcases List.mem_append.1 h with h | h
      · obtain ⟨p, e⟩ := a2 it h; exact ⟨i, p, Nat.le_refl _, e⟩
      · obtain ⟨j, p, hj, e⟩ := b2 it h; exact ⟨j, p, by omega, e⟩

theorem keys_each (E : Env) (fs : List GField) (i : Nat) : (((eachBlocks E i fs).flatMap (·.steps)).flatMap keyOf).Nodup ∧
    ∀ it ∈ ((eachBlocks E i fs).flatMap (·.steps)).flatMap keyOf, ∃ j p, i ≤ j ∧ it = .part j p := by
  induction fs generalizing i with
  | nil => simp [eachBlocks]
  | cons f fs ih =>
    obtain ⟨a1, a2⟩ := keys_field E i f
    obtain ⟨b1, b2⟩ := ih (i + 1)
    rw [eachBlocks]
    cases hch : f.chan with
    | none =>
      refine ⟨b1, fun it h => ?_⟩
      obtain ⟨j, p, hj, e⟩ := b2 it h
      exact ⟨j, p, by omega, e⟩
    | some r =>
      simp only [List.cons_append, List.nil_append, List.flatMap_cons, List.flatMap_append]
      refine ⟨nodup_append' a1 b1 ?_, ?_⟩
      · intro it h1 h2
        obtain ⟨p, rfl⟩ := a2 it h1
        obtain ⟨j, q, hj, e⟩ := b2 _ h2
        injection e with e1
        omega
      · intro it h
        rcases List.mem_append.1 h with h | h
        · obtain ⟨p, e⟩ := a2 it h; exact ⟨i, p, Nat.le_refl _, e⟩
        · obtain ⟨j, p, hj, e⟩ := b2 it h; exact ⟨j, p, by omega, e⟩

theorem keys_done {E P bs os} (h : AllDone E P bs os) : os.flatten.map (·.1) = (bs.flatMap (·.steps)).flatMap keyOf := by
  induction h with
  | nil => rfl
  | cons hd _ ih =>
    obtain ⟨D, _, rfl, _⟩ := hd
    rw [List.flatten_cons, List.map_append, map_eval, ih, List.flatMap_cons, List.flatMap_append]

theorem once_of (E : Env) (fs : List GField) (atomic : Bool) {P os} (h : AllDone E P (blocks E fs atomic) os) (n : Nat) : Once ((Item.options, n) :: os.flatten) := by
  unfold Once
  rw [List.map_cons, keys_done h]
  have k : (((blocks E fs atomic).flatMap (·.steps)).flatMap keyOf).Nodup ∧ ∀ it ∈ ((blocks E fs atomic).flatMap (·.steps)).flatMap keyOf, ∃ j p, 0 ≤ j ∧ it = .part j p := by
    cases atomic with
    | true => simpa [blocks] using keys_all E fs 0
    | false => exact keys_each E fs 0
  refine List.nodup_cons.2 ⟨fun h => ?_, k.1⟩
  obtain ⟨j, p, _, e⟩ := k.2 _ h
  cases e

theorem says_of' {E P bs os} (h : AllDone E P bs os) (atomic : Bool) : Says ((Item.options, if atomic then 1 else 0) :: os.flatten) atomic := by
  intro x
  rw [List.mem_cons]
  constructor
  · rintro (h' | h')
    · injection h'
    · exact absurd h' (done_part h x)
  · intro e; exact .inl (by rw [e])

/-! ### C91 -/

theorem value_inv {E fs atomic db ts v} (h : Result.value v ∈ (run E fs atomic db ts).sent) :
    ∃ os, AllDone E (Seen E fs atomic db ts) (blocks E fs atomic) os ∧ v = (Item.options, if atomic then 1 else 0) :: os.flatten := by
  cases run_inv E fs atomic db ts with
  | between _ _ _ _ _ h6 => rw [h6] at h; cases h
  | inside _ _ _ _ _ _ _ h8 => rw [h8] at h; cases h
  | @ended os h1 _ _ h4 =>
    rw [h4, List.mem_singleton] at h
    injection h with h
    exact ⟨os, h1, h⟩
  | failing _ _ h3 => rw [h3] at h; cases h
  | failed _ _ _ h4 => rw [h4] at h; cases h
  | error _ _ _ h4 => rw [h4, List.mem_singleton] at h; cases h

/-- C91: what an atomic get replies is the state of all members at one instant `k` during the get, the constants among them, and says that it
was atomic; at that instant all could be read. -/
theorem C91_atomic (E : Env) (fs : List GField) (hl : Loaded fs) (db : Nat → Nat) (ts : List Turn) (v : List (Item × Nat))
    (h : Result.value v ∈ (run E fs true db ts).sent) :
    Once v ∧ Says v true ∧ ∃ k, k ≤ ts.length ∧ ∃ D, D = (run E fs true db (ts.take k)).db ∧ (∀ i p x, (Item.part i p, x) ∈ v ↔ Is E fs D i p x) ∧
      ∀ i f p r, fs[i]? = some f → f.type ≠ .const → Shown f.type p → p ≠ .form → f.chan = some r → E.fails i p (D r) = false := by
  obtain ⟨os, h1, rfl⟩ := value_inv h
  refine ⟨once_of E fs true h1 _, says_of' h1 true, ?_⟩
  simp only [blocks, if_true] at h1
  cases h1 with
  | cons hd hn =>
    cases hn
    obtain ⟨D, ⟨k, hk, hD⟩, rfl, hb⟩ := hd
    refine ⟨k, hk, D, hD, fun i p x => ?_, fun i f p r hf h1 h2 h3 h4 => ?_⟩
    · simp only [List.flatten_cons, List.flatten_nil, List.append_nil, List.mem_cons, Prod.mk.injEq, reduceCtorEq, false_and, false_or]
      rw [mem_all E D fs hl fs 0 rfl]
      simp
    · have hn : ¬∃ c ∈ fieldSteps E i f, bad E D c = true := by
        rintro ⟨c, hc, hcb⟩
        rw [hb c (bad_all E D fs fs 0 rfl i (Nat.zero_le _) f hf c hc)] at hcb
        cases hcb
      rw [bad_field] at hn
      cases hx : E.fails i p (D r) with
      | false => rfl
      | true => exact absurd ⟨p, r, h1, h2, h3, h4, hx⟩ hn

/-- C91, in part: without atomic, each member which has a record is shown as it was at some instant during the get, its value, alarm and
properties at the same one.  Missing: the constants, see C91_const_missing. -/
theorem C91_each_partial (E : Env) (fs : List GField) (hl : Loaded fs) (db : Nat → Nat) (ts : List Turn) (v : List (Item × Nat))
    (h : Result.value v ∈ (run E fs false db ts).sent) :
    Once v ∧ Says v false ∧ ∀ i f, fs[i]? = some f → f.chan ≠ none →
      ∃ k, k ≤ ts.length ∧ ∃ D, D = (run E fs false db (ts.take k)).db ∧ (∀ p x, (Item.part i p, x) ∈ v ↔ Is E fs D i p x) ∧
        ∀ p r, f.type ≠ .const → Shown f.type p → p ≠ .form → f.chan = some r → E.fails i p (D r) = false := by
  obtain ⟨os, h1, rfl⟩ := value_inv h
  refine ⟨once_of E fs false h1 _, says_of' h1 false, fun i f hf hc => ?_⟩
  obtain ⟨a1, _⟩ := each_mem E _ fs hl fs 0 rfl os h1
  obtain ⟨D, ⟨k, hk, hD⟩, h2, h3⟩ := a1 i f (Nat.zero_le _) hf hc
  refine ⟨k, hk, D, hD, fun p x => ?_, fun p r q1 q2 q3 q4 => ?_⟩
  · rw [← h2]
    simp
  · have hn : ¬∃ c ∈ fieldSteps E i f, bad E D c = true := by
      rintro ⟨c, hc, hcb⟩
      rw [h3 c hc] at hcb
      cases hcb
    rw [bad_field] at hn
    cases hx : E.fails i p (D r) with
    | false => rfl
    | true => exact absurd ⟨p, r, q1, q2, q3, q4, hx⟩ hn

/-- Contrary to C91: without atomic, a constant is never part of what is replied. -/
theorem C91_const_missing (E : Env) (fs : List GField) (hl : Loaded fs) (db : Nat → Nat) (ts : List Turn) (v : List (Item × Nat))
    (h : Result.value v ∈ (run E fs false db ts).sent) (i : Nat) (f : GField) (hf : fs[i]? = some f) (hc : f.chan = none) (p : Part) (x : Nat) :
    (Item.part i p, x) ∉ v := by
  obtain ⟨os, h1, rfl⟩ := value_inv h
  intro hm
  obtain ⟨_, a2⟩ := each_mem E _ fs hl fs 0 rfl os h1
  simp only [List.mem_cons, Prod.mk.injEq, reduceCtorEq, false_and, false_or] at hm
  obtain ⟨_, g, hg, hgc⟩ := a2 i p x hm
  rw [hf] at hg
  cases hg
  exact hgc hc

/-- C91: an error is replied only if some member could not be read. -/
theorem C91_error (E : Env) (fs : List GField) (atomic : Bool) (db : Nat → Nat) (ts : List Turn) (h : Result.error ∈ (run E fs atomic db ts).sent) :
    ∃ k, k ≤ ts.length ∧ ∃ D, D = (run E fs atomic db (ts.take k)).db ∧
      ∃ i f p r, fs[i]? = some f ∧ Shown f.type p ∧ f.chan = some r ∧ E.fails i p (D r) = true := by
  have key : ∀ {P}, Failed E P (blocks E fs atomic) → ∃ D, P D ∧ ∃ i f p r, fs[i]? = some f ∧ Shown f.type p ∧ f.chan = some r ∧ E.fails i p (D r) = true := by
    rintro P ⟨D, hD, b, hb, c, hc, hcb⟩
    have hs : ∃ j f, fs[j]? = some f ∧ c ∈ fieldSteps E j f := by
      cases atomic with
      | true =>
        simp only [blocks, if_true, List.mem_singleton] at hb
        subst hb
        exact step_of_all E fs fs 0 rfl c hc
      | false => exact step_of_each E fs fs 0 rfl b hb c hc
    obtain ⟨j, f, hf, hcf⟩ := hs
    obtain ⟨p, r, _, h2, _, h4, h5⟩ := (bad_field E D j f).1 ⟨c, hcf, hcb⟩
    exact ⟨D, hD, j, f, p, r, hf, h2, h4, h5⟩
  have hfail : Failed E (Seen E fs atomic db ts) (blocks E fs atomic) := by
    cases run_inv E fs atomic db ts with
    | between _ _ _ _ _ h6 => rw [h6] at h; cases h
    | inside _ _ _ _ _ _ _ h8 => rw [h8] at h; cases h
    | ended _ _ _ h4 => rw [h4, List.mem_singleton] at h; cases h
    | failing _ _ h3 => rw [h3] at h; cases h
    | failed _ _ _ h4 => rw [h4] at h; cases h
    | error h1 _ _ _ => exact h1
  obtain ⟨D, ⟨k, hk, hD⟩, rest⟩ := key hfail
  exact ⟨k, hk, D, hD, rest⟩

/-- C91: the client is answered at most once. -/
theorem C91_one (E : Env) (fs : List GField) (atomic : Bool) (db : Nat → Nat) (ts : List Turn) : (run E fs atomic db ts).sent.length ≤ 1 := by
  cases run_inv E fs atomic db ts with
  | between _ _ _ _ _ h6 => rw [h6]; simp
  | inside _ _ _ _ _ _ _ h8 => rw [h8]; simp
  | ended _ _ _ h4 => rw [h4]; simp
  | failing _ _ h3 => rw [h3]; simp
  | failed _ _ _ h4 => rw [h4]; simp
  | error _ _ _ h4 => rw [h4]; simp

/-- each step of the get leaves less to do -/
theorem todo_less {E bs hd P} {s : St} (h : Inv E bs hd P s) : (s.step E .get).todo.length ≤ s.todo.length - 1 := by
  cases h with
  | @between done rest os h1 h2 h3 h4 h5 h6 =>
    cases rest with
    | nil => rw [step_get E s (c := .reply) (k := []) (by rw [h3]; rfl), h3]; simp [St.exec]
    | cons b rest => rw [step_get E s (c := .lock b.recs) (k := b.steps ++ .unlock :: prog rest) (by rw [h3]; simp [prog, blockProg]), h3]; simp [St.exec, prog, blockProg]
  | @inside done b rest os pre post h1 h2 h3 h4 h5 h6 h7 h8 =>
    cases post with
    | nil => rw [step_get E s (c := .unlock) (k := prog rest) (by rw [h4]; rfl), h4]; simp [St.exec]
    | cons c post =>
      rw [step_get E s (c := c) (k := post ++ .unlock :: prog rest) (by rw [h4]; rfl), h4]
      cases c <;> simp only [St.exec]
      case read i p r => split <;> simp [prog] <;> omega
      all_goals simp
  | ended h1 h2 h3 h4 => rw [step_idle E s h2, h2]; simp
  | failing h1 h2 h3 => rw [step_get E s h2, h2]; simp [St.exec]
  | failed h1 h2 h3 h4 => rw [step_get E s h2, h2]; simp [St.exec]
  | error h1 h2 h3 h4 => rw [step_idle E s h2, h2]; simp

theorem todo_left (E : Env) (fs : List GField) (atomic : Bool) (db : Nat → Nat) (ts : List Turn) :
    (run E fs atomic db ts).todo.length ≤ (program E fs atomic).length - ts.count .get := by
  obtain ⟨us, rfl⟩ : ∃ us, ts = us.reverse := ⟨ts.reverse, by simp⟩
  induction us with
  | nil => simp [run, St.init]
  | cons t us ih =>
    rw [List.reverse_cons]
    have e : run E fs atomic db (us.reverse ++ [t]) = (run E fs atomic db us.reverse).step E t := by simp [run]
    rw [e, List.count_append]
    cases t with
    | get =>
      have := todo_less (run_inv E fs atomic db us.reverse)
      simp only [List.count_singleton_self]
      omega
    | write r x =>
      have e2 : ((run E fs atomic db us.reverse).step E (.write r x)).todo = (run E fs atomic db us.reverse).todo := by
        simp only [St.step]; split <;> rfl
      rw [e2]
      simpa using ih

/-- C91: whatever others do, the get ends after so many steps of its own: the client is answered once, and nothing is locked. -/
theorem C91_ends (E : Env) (fs : List GField) (atomic : Bool) (db : Nat → Nat) (ts : List Turn) (h : 6 * fs.length + 3 ≤ ts.count .get) :
    (run E fs atomic db ts).sent.length = 1 ∧ (run E fs atomic db ts).locked = [] := by
  have hlen : (program E fs atomic).length ≤ 6 * fs.length + 3 := by
    have hf : ∀ i f, (fieldSteps E i f).length ≤ 4 := by
      intro i f
      obtain ⟨t, ch, cv⟩ := f
      unfold fieldSteps
      cases t <;> cases ch <;> simp
    have ha : ∀ (fs : List GField) i, (allSteps E i fs).length ≤ 6 * fs.length := by
      intro fs
      induction fs with
      | nil => simp [allSteps]
      | cons f fs ih => intro i; have := hf i f; have := ih (i + 1); simp only [allSteps, List.length_append, List.length_cons]; omega
    have he : ∀ (fs : List GField) i, (eachSteps E i fs).length ≤ 6 * fs.length := by
      intro fs
      induction fs with
      | nil => simp [eachSteps]
      | cons f fs ih =>
        intro i; have := hf i f; have := ih (i + 1)
        simp only [eachSteps, List.length_append, List.length_cons]
        cases f.chan <;> simp <;> omega
    have h1 := ha fs 0
    have h2 := he fs 0
    cases atomic <;> simp [program] <;> omega
  have ht : (run E fs atomic db ts).todo = [] := by
    have := todo_left E fs atomic db ts
    exact List.eq_nil_of_length_eq_zero (by omega)
  cases run_inv E fs atomic db ts with
  | between _ _ h3 _ _ _ => rw [h3] at ht; simp [prog] at ht
  | inside _ _ _ h4 _ _ _ _ => rw [h4] at ht; simp at ht
  | ended _ _ h3 h4 => rw [h4]; exact ⟨rfl, h3⟩
  | failing _ h2 _ => rw [h2] at ht; cases ht
  | failed _ h2 _ _ => rw [h2] at ht; cases ht
  | error _ _ h3 h4 => rw [h4]; exact ⟨rfl, h3⟩

/-- C91: the request decides if it has the option as a boolean, a number or a text, else the definition of the group. -/
theorem C91_choice (dflt b : Bool) (n : Nat) (v : Int) :
    atomicOf dflt none = dflt ∧ atomicOf dflt (some (.bool b)) = b ∧ atomicOf dflt (some (.int v)) = decide (v ≠ 0) ∧ atomicOf dflt (some (.uint n)) = decide (n ≠ 0) ∧
    atomicOf dflt (some (.str [0x74, 0x72, 0x75, 0x65])) = true ∧ atomicOf dflt (some (.str [0x66, 0x61, 0x6c, 0x73, 0x65])) = false ∧
    ∀ s, s ≠ [0x74, 0x72, 0x75, 0x65] → s ≠ [0x66, 0x61, 0x6c, 0x73, 0x65] → atomicOf dflt (some (.str s)) = dflt := by
  refine ⟨rfl, rfl, ?_, ?_, rfl, rfl, ?_⟩
  · simp [atomicOf, copyOut]; by_cases h : v = 0 <;> simp [h]
  · simp [atomicOf, copyOut]; by_cases h : n = 0 <;> simp [h]
  · intro s h1 h2
    simp only [atomicOf, copyOut, parseBool, trueText, falseText, h1, h2]
    simp

/-! ### concrete runs -/

/-- a member with value, alarm and properties, a plain one, a constant -/
def demo : List GField := [{ type := .scalar, chan := some 3 }, { type := .plain, chan := some 4 }, { type := .const, cval := 7 }]
def demoEnv : Env := { data := fun i p x => 100 * i + 10 * x + (if p = .value then 0 else 1), fails := fun _ _ x => x == 9, form := fun _ => 5 }

example : Loaded demo := by intro f hf; simp [demo] at hf; rcases hf with rfl | rfl | rfl <;> simp

/-- the write to record 4 has to wait -/
example : (run demoEnv demo true (fun _ => 1) [.get, .get, .write 4 2, .write 5 2, .get, .get, .get, .get, .get, .get, .write 4 3, .get]).sent =
    [.value [(.options, 1), (.part 0 .form, 5), (.part 0 .props, 11), (.part 0 .alarm, 11), (.part 0 .value, 10), (.part 1 .value, 110), (.part 2 .value, 7)]] := by rfl

/-- a member cannot be read -/
example : (run demoEnv demo true (fun _ => 1) ([.write 4 9] ++ List.replicate 30 .get)).sent = [.error] := by rfl

/-- Without atomic, what is replied need not be the state at any one instant. -/
theorem C91_not_one : ∃ (E : Env) (fs : List GField) (db : Nat → Nat) (ts : List Turn) (v : List (Item × Nat)), Loaded fs ∧
    Result.value v ∈ (run E fs false db ts).sent ∧ (∀ f ∈ fs, f.chan ≠ none) ∧
    ∀ k, k ≤ ts.length → ∃ i p x, (Item.part i p, x) ∈ v ∧ ¬Is E fs (run E fs false db (ts.take k)).db i p x := by
  refine ⟨demoEnv, demo.take 2, fun _ => 1, [.get, .get, .get, .get, .get, .get, .write 3 2, .write 4 2, .get, .get, .get, .get],
    [(.options, 0), (.part 0 .form, 5), (.part 0 .props, 11), (.part 0 .alarm, 11), (.part 0 .value, 10), (.part 1 .value, 120)], ?_, ?_, ?_, ?_⟩
  · intro f hf; simp [demo] at hf; rcases hf with rfl | rfl <;> simp
  · rw [show (run demoEnv (demo.take 2) false (fun _ => 1) [.get, .get, .get, .get, .get, .get, .write 3 2, .write 4 2, .get, .get, .get, .get]).sent =
      [.value [(.options, 0), (.part 0 .form, 5), (.part 0 .props, 11), (.part 0 .alarm, 11), (.part 0 .value, 10), (.part 1 .value, 120)]] from by rfl]
    simp
  · intro f hf; simp [demo] at hf; rcases hf with rfl | rfl <;> simp
  · intro k hk
    have two : ∀ D, ¬(Is demoEnv (demo.take 2) D 0 .value 10 ∧ Is demoEnv (demo.take 2) D 1 .value 120) ∨ (D 3 = 1 ∧ D 4 = 2) := by
      intro D
      by_cases h : Is demoEnv (demo.take 2) D 0 .value 10 ∧ Is demoEnv (demo.take 2) D 1 .value 120
      · right
        obtain ⟨h1, h2⟩ := h
        constructor
        · cases h1 with
          | const a b => simp [demo] at a; subst a; cases b
          | form _ _ c => cases c
          | record a b c d e f => simp [demo] at a; subst a; simp at e; subst e; simp [demoEnv] at f; omega
        · cases h2 with
          | const a b => simp [demo] at a; subst a; cases b
          | form _ _ c => cases c
          | record a b c d e f => simp [demo] at a; subst a; simp at e; subst e; simp [demoEnv] at f; omega
      · exact .inl h
    have never : ¬((run demoEnv (demo.take 2) false (fun _ => 1) (List.take k [.get, .get, .get, .get, .get, .get, .write 3 2, .write 4 2, .get, .get, .get, .get])).db 3 = 1 ∧
        (run demoEnv (demo.take 2) false (fun _ => 1) (List.take k [.get, .get, .get, .get, .get, .get, .write 3 2, .write 4 2, .get, .get, .get, .get])).db 4 = 2) := by
      simp only [List.length_cons, List.length_nil] at hk
      have : k < 13 := by omega
      revert this
      revert k
      decide
    rcases two (run demoEnv (demo.take 2) false (fun _ => 1) (List.take k [.get, .get, .get, .get, .get, .get, .write 3 2, .write 4 2, .get, .get, .get, .get])).db with h | h
    · by_cases h0 : Is demoEnv (demo.take 2) (run demoEnv (demo.take 2) false (fun _ => 1) (List.take k [.get, .get, .get, .get, .get, .get, .write 3 2, .write 4 2, .get, .get, .get, .get])).db 0 .value 10
      · exact ⟨1, .value, 120, by simp, fun h1 => h ⟨h0, h1⟩⟩
      · exact ⟨0, .value, 10, by simp, h0⟩
    · exact absurd h never

end Pvxs.Props.GroupGet
