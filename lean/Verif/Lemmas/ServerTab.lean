import Verif.Lemmas.ServerLife
/-
The tables of a connection: a live operation can be found by its ioid, and so is told when its channel or connection goes.
-/
namespace Pvxs.Server
open Wire (Byte)

theorem find?_erase (m : Map) (a b : Nat) : Map.find? (Map.erase m a) b = if a = b then none else Map.find? m b := by
  unfold Map.find? Map.erase
  induction m with
  | nil => simp
  | cons p m ih =>
    obtain ⟨x, y⟩ := p
    rw [List.filter_cons]
    by_cases hx : x = a
    · subst hx
      simp only [bne_self_eq_false, Bool.false_eq_true, if_false, ih]
      split
      · rfl
      · rename_i h
        rw [List.lookup_cons]
        have : (b == x) = false := by simp; exact fun e => h e.symm
        rw [this]
    · have : (x != a) = true := by simpa using hx
      simp only [this, if_true]
      rw [List.lookup_cons, List.lookup_cons, ih]
      by_cases hb : b = x
      · subst hb; simp [Ne.symm hx]
      · have : (b == x) = false := by simpa using hb
        rw [this]

theorem find?_insert (m : Map) (a v b : Nat) : Map.find? (Map.insert m a v) b = if a = b then some v else Map.find? m b := by
  unfold Map.insert
  show List.lookup _ _ = _
  rw [List.lookup_cons]
  by_cases h : a = b
  · subst h; simp
  · have : (b == a) = false := by simp; exact fun e => h e.symm
    rw [this]
    show Map.find? (Map.erase m a) b = _
    rw [find?_erase, if_neg h, if_neg h]

theorem find?_mem {m : Map} {a v : Nat} (h : Map.find? m a = some v) : v ∈ m.map (·.2) := by
  unfold Map.find? at h
  induction m with
  | nil => simp at h
  | cons p m ih =>
    obtain ⟨x, y⟩ := p
    rw [List.lookup_cons] at h
    split at h
    · cases h; simp
    · exact List.mem_cons_of_mem _ (ih h)

/-- operation `i` is not over -/
def Live (s : SConn) (i : Nat) (op : SOp) : Prop := s.ops[i]? = some op ∧ op.state ≠ .dead

def InConn (s : SConn) (i : Nat) (op : SOp) : Prop := Map.find? s.opByIOID op.ioid = some i
def InChan (s : SConn) (i : Nat) (op : SOp) : Prop :=
  ∃ ch, s.chans[op.chan]? = some ch ∧ Map.find? ch.ops op.ioid = some i

/-- every live operation is in both tables; those in `L` maybe not in the one of the channel -/
def Tab (s : SConn) (L : List Nat) : Prop := ∀ i op, Live s i op → InConn s i op ∧ (i ∈ L ∨ InChan s i op)

/-- channel ids refer to channels -/
def SidOK (s : SConn) : Prop := ∀ sid c, Map.find? s.chanBySID sid = some c → c < s.chans.length

/-- the tables only lose what is not live -/
theorem Tab.mono {s t : SConn} {L : List Nat} (h : Tab s L) (hm : t.opByIOID = s.opByIOID) (hc : t.chans = s.chans)
    (hl : ∀ i op, Live t i op → ∃ op0, Live s i op0 ∧ op.ioid = op0.ioid ∧ op.chan = op0.chan) : Tab t L := by
  intro i op ho
  obtain ⟨op0, h0, e1, e2⟩ := hl i op ho
  have := h i op0 h0
  unfold InConn InChan at this ⊢
  rw [hm, hc, e1, e2]; exact this

theorem live_modOp {s t : SConn} {i : Nat} {f : SOp → SOp} (ht : t.ops = (s.modOp i f).ops) (hf : ∀ op : SOp, op.Same (f op))
    (hd' : ∀ op, s.ops[i]? = some op → op.state = .dead → (f op).state = .dead) :
    ∀ j op, Live t j op → ∃ op0, Live s j op0 ∧ op.ioid = op0.ioid ∧ op.chan = op0.chan := by
  rintro j op ⟨h1, h2⟩
  rw [ht] at h1
  unfold SConn.modOp at h1
  simp only [List.getElem?_modify] at h1
  cases h0 : s.ops[j]? with
  | none => rw [h0] at h1; simp at h1
  | some op0 =>
    rw [h0] at h1
    by_cases e : i = j
    · subst e
      simp at h1
      subst h1
      refine ⟨op0, ⟨h0, fun hd0 => h2 (hd' op0 h0 hd0)⟩, (hf op0).2.2, (hf op0).2.1⟩
    · simp [e] at h1
      subst h1
      exact ⟨op0, ⟨h0, h2⟩, rfl, rfl⟩

/-! ### teardown -/

theorem forget_tab {s : SConn} {i : Nat} {op : SOp} {L : List Nat}
    (hs : ∀ j o, j ≠ i → Live s j o → InConn s j o ∧ (j ∈ L ∨ InChan s j o)) (hi : ∀ o, s.ops[i]? = some o → o.state = .dead)
    (hu : ∀ j, Map.find? s.opByIOID op.ioid = some j → j = i) :
    Tab (forget s i op) L ∧ (forget s i op).aborted = s.aborted := by
  constructor
  · intro j o hl
    have hji : j ≠ i := by rintro rfl; exact hl.2 (hi o hl.1)
    obtain ⟨h1, h2⟩ := hs j o hji hl
    have hne : op.ioid ≠ o.ioid := by
      intro e
      unfold InConn at h1
      rw [← e] at h1
      exact hji (hu j h1)
    refine ⟨?_, h2.imp id ?_⟩
    · show Map.find? (Map.erase s.opByIOID op.ioid) o.ioid = some j
      rw [find?_erase, if_neg hne]; exact h1
    · rintro ⟨ch, hc, hf⟩
      show ∃ ch, (s.chans.modify op.chan _)[o.chan]? = some ch ∧ _
      rw [List.getElem?_modify, hc]
      by_cases e : op.chan = o.chan
      · refine ⟨{ ch with ops := Map.erase ch.ops op.ioid }, by simp [e], ?_⟩
        show Map.find? (Map.erase ch.ops op.ioid) o.ioid = some j
        rw [find?_erase, if_neg hne]; exact hf
      · exact ⟨ch, by simp [e], hf⟩
  · show (s.aborted || losesLive s i op) = s.aborted
    have : losesLive s i op = false := by
      unfold losesLive
      split
      · rfl
      · rename_i j hj
        simp [hu j hj]
    simp [this]

/-- what cleanup() leaves alone -/
structure Frame (s t : SConn) : Prop where
  isOpen : t.isOpen = s.isOpen
  chanBySID : t.chanBySID = s.chanBySID
  nchans : t.chans.length = s.chans.length
  pending : t.pending = s.pending
  nops : t.ops.length = s.ops.length
  dead : ∀ (i : Nat) op, t.ops[i]? = some op → ∃ op0, s.ops[i]? = some op0 ∧ op0.Same op ∧ (op0.state = .dead → op.state = .dead)

theorem Frame.refl (s : SConn) : Frame s s := ⟨rfl, rfl, rfl, rfl, rfl, fun _ op h => ⟨op, h, ⟨rfl, rfl, rfl⟩, id⟩⟩
theorem Frame.trans {s t u : SConn} (a : Frame s t) (b : Frame t u) : Frame s u := by
  refine ⟨b.isOpen.trans a.isOpen, b.chanBySID.trans a.chanBySID, b.nchans.trans a.nchans, b.pending.trans a.pending,
    b.nops.trans a.nops, fun i op h => ?_⟩
  obtain ⟨o1, h1, s1, d1⟩ := b.dead i op h
  obtain ⟨o2, h2, s2, d2⟩ := a.dead i o1 h1
  exact ⟨o2, h2, ⟨s1.1.trans s2.1, s1.2.1.trans s2.2.1, s1.2.2.trans s2.2.2⟩, fun e => d1 (d2 e)⟩

theorem modOp_dead_get (s : SConn) (i : Nat) (f : SOp → SOp) (hf : ∀ op : SOp, op.Same (f op))
    (hd : ∀ op, op.state = .dead → (f op).state = .dead) (j : Nat) (op : SOp) (h : (s.ops.modify i f)[j]? = some op) :
    ∃ op0, s.ops[j]? = some op0 ∧ op0.Same op ∧ (op0.state = .dead → op.state = .dead) := by
  rw [List.getElem?_modify] at h
  cases h0 : s.ops[j]? with
  | none => rw [h0] at h; simp at h
  | some op0 =>
    rw [h0] at h
    refine ⟨op0, rfl, ?_⟩
    by_cases e : i = j
    · simp [e] at h; subst h; exact ⟨hf op0, hd op0⟩
    · simp [e] at h; subst h; exact ⟨⟨rfl, rfl, rfl⟩, id⟩

theorem emitIf_chanBySID (s : SConn) (b : Bool) (o : Obs) : (s.emitIf b o).chanBySID = s.chanBySID := by
  cases b <;> simp [SConn.emitIf, SConn.emit]

theorem cleanup_frame (s : SConn) (i : Nat) : Frame s (cleanup s i) ∧ ∀ op, (cleanup s i).ops[i]? = some op → op.state = .dead := by
  unfold cleanup
  split
  · rename_i h
    exact ⟨.refl _, fun op h' => by rw [h] at h'; cases h'⟩
  · rename_i op h
    split
    · rename_i hd
      exact ⟨.refl _, fun op' h' => by rw [h] at h'; cases h'; exact hd⟩
    · refine ⟨⟨?_, ?_, ?_, ?_, ?_, ?_⟩, ?_⟩
      · simp
      · rw [emitIf_chanBySID]
        show (s.emitIf _ _).chanBySID = _
        rw [emitIf_chanBySID]
      · rw [emitIf_chans]
        show (List.modify _ _ _).length = _
        simp
      · simp
      · simp only [emitIf_ops, forget_ops, emit_ops]
        show (List.modify _ _ _).length = _
        simp
      · intro j o hj
        simp only [emitIf_ops, forget_ops, emit_ops] at hj
        have hj' : (s.ops.modify i fun op => { op with state := .dead, onCancel := false, onClose := false })[j]? = some o := by
          rw [← hj]; show _ = (List.modify (s.emitIf _ _).ops _ _)[j]?; rw [emitIf_ops]
        exact modOp_dead_get s i (fun op => { op with state := .dead, onCancel := false, onClose := false })
          (fun _ => ⟨rfl, rfl, rfl⟩) (fun _ _ => rfl) j o hj'
      · intro o ho
        simp only [emitIf_ops, forget_ops, emit_ops] at ho
        have ho' : (s.ops.modify i fun op => { op with state := .dead, onCancel := false, onClose := false })[i]? = some o := by
          rw [← ho]; show _ = (List.modify (s.emitIf _ _).ops _ _)[i]?; rw [emitIf_ops]
        rw [List.getElem?_modify, h] at ho'
        simp at ho'
        rw [← ho']

theorem cleanup_tab {s : SConn} {i : Nat} {L : List Nat}
    (hs : ∀ j o, j ≠ i → Live s j o → InConn s j o ∧ (j ∈ L ∨ InChan s j o))
    (hu : ∀ op, Live s i op → ∀ j, Map.find? s.opByIOID op.ioid = some j → j = i) :
    Tab (cleanup s i) L ∧ (cleanup s i).aborted = s.aborted := by
  unfold cleanup
  split
  · rename_i h
    refine ⟨fun j o hl => ?_, rfl⟩
    exact hs j o (by rintro rfl; have := hl.1; rw [h] at this; cases this) hl
  · rename_i op h
    split
    · rename_i hd
      refine ⟨fun j o hl => ?_, rfl⟩
      exact hs j o (by rintro rfl; have := hl.1; rw [h] at this; cases this; exact hl.2 hd) hl
    · rename_i hd
      generalize hs1 : ((s.emitIf (op.state == .executing && op.onCancel) (.onCancel i)).modOp i fun op =>
        { op with state := .dead, onCancel := false, onClose := false }).emit (.ended i .teardown) = s1
      have ho1 : s1.ops = s.ops.modify i fun op => { op with state := .dead, onCancel := false, onClose := false } := by
        rw [← hs1, emit_ops]; show List.modify _ _ _ = _; rw [emitIf_ops]
      have hm1 : s1.opByIOID = s.opByIOID := by rw [← hs1]; simp
      have hc1 : s1.chans = s.chans := by rw [← hs1]; simp
      have ha1 : s1.aborted = s.aborted := by rw [← hs1]; simp
      have := forget_tab (s := s1) (i := i) (op := op) (L := L) (by
        rintro j o hji ⟨h1, h2⟩
        rw [ho1, List.getElem?_modify] at h1
        have hne : ¬ i = j := fun e => hji e.symm
        simp [hne] at h1
        have := hs j o hji ⟨h1, h2⟩
        unfold InConn InChan at this ⊢
        rw [hm1, hc1]; exact this) (by
        intro o h1
        rw [ho1, List.getElem?_modify, h] at h1
        simp at h1; rw [← h1]) (by rw [hm1]; exact hu op ⟨h, hd⟩)
      subst hs1
      refine ⟨?_, ?_⟩
      · refine Tab.mono this.1 (by simp) (by simp) ?_
        intro j o hl
        refine ⟨o, ?_, rfl, rfl⟩
        unfold Live at hl ⊢
        rw [emitIf_ops] at hl
        exact hl
      · rw [emitIf_aborted, this.2, ha1]

theorem cleanupAll_tab (is : List Nat) : ∀ {s : SConn}, Tab s is →
    Tab (cleanupAll s is) [] ∧ (cleanupAll s is).aborted = s.aborted := by
  induction is with
  | nil => exact fun h => ⟨h, rfl⟩
  | cons i is ih =>
    intro s h
    have h1 := cleanup_tab (s := s) (i := i) (L := is)
      (fun j o hj hl => ⟨(h j o hl).1, (h j o hl).2.imp (fun hm => by simpa [hj] using hm) id⟩)
      (fun op hl j hj => by have := (h i op hl).1; unfold InConn at this; rw [this] at hj; cases hj; rfl)
    have h2 := ih h1.1
    exact ⟨h2.1, by rw [← h1.2]; exact h2.2⟩

theorem cleanupAll_frame (is : List Nat) : ∀ s : SConn, Frame s (cleanupAll s is) ∧
    ∀ i ∈ is, ∀ op, (cleanupAll s is).ops[i]? = some op → op.state = .dead := by
  induction is with
  | nil => exact fun s => ⟨.refl s, by simp⟩
  | cons i is ih =>
    intro s
    have h1 := cleanup_frame s i
    have h2 := ih (cleanup s i)
    refine ⟨h1.1.trans h2.1, ?_⟩
    intro j hj op ho
    rcases List.mem_cons.1 hj with rfl | hj
    · obtain ⟨o, a, _, c⟩ := h2.1.dead j op ho
      exact c (h1.2 o a)
    · exact h2.2 j hj op ho

theorem chanCleanup_frame (s : SConn) (c : Nat) : Frame s (chanCleanup s c) := by
  unfold chanCleanup
  split
  · exact .refl _
  · split
    · exact .refl _
    · rename_i ch h hd
      have h1 : Frame s ((s.modChan c fun ch => { ch with destroyed := true, ops := [], onClose := false }).emit (.chanGone c)) :=
        ⟨rfl, rfl, by show (List.modify _ _ _).length = _; simp, rfl, rfl, fun _ op h => ⟨op, h, ⟨rfl, rfl, rfl⟩, id⟩⟩
      refine (h1.trans (cleanupAll_frame (ch.ops.map (·.2)) _).1).trans ⟨by simp, by simp [emitIf_chanBySID], by simp, by simp, by simp, ?_⟩
      intro i op ho
      rw [emitIf_ops] at ho
      exact ⟨op, ho, ⟨rfl, rfl, rfl⟩, id⟩

theorem chanCleanup_tab {s : SConn} {c : Nat} (h : Tab s []) : Tab (chanCleanup s c) [] ∧ (chanCleanup s c).aborted = s.aborted := by
  unfold chanCleanup
  split
  · exact ⟨h, rfl⟩
  · split
    · exact ⟨h, rfl⟩
    · rename_i ch hc hd
      generalize hs1 : (s.modChan c fun ch => { ch with destroyed := true, ops := [], onClose := false }).emit (.chanGone c) = s1
      have hc1 : s1.chans = s.chans.modify c fun ch => { ch with destroyed := true, ops := [], onClose := false } := by rw [← hs1]; rfl
      have ht : Tab s1 (ch.ops.map (·.2)) := by
        intro i op hl
        have hl' : Live s i op := by rw [← hs1] at hl; exact hl
        obtain ⟨h1, h2⟩ := h i op hl'
        refine ⟨by rw [← hs1]; exact h1, ?_⟩
        rcases h2 with h2 | ⟨ch', h2, h3⟩
        · simp at h2
        · by_cases e : c = op.chan
          · subst e
            rw [hc] at h2; cases h2
            exact .inl (find?_mem h3)
          · right
            refine ⟨ch', ?_, h3⟩
            rw [hc1, List.getElem?_modify, h2]; simp [e]
      have := cleanupAll_tab _ ht
      subst hs1
      refine ⟨Tab.mono this.1 (by simp) (by simp) ?_, by rw [emitIf_aborted, this.2]; rfl⟩
      intro j o hl
      refine ⟨o, ?_, rfl, rfl⟩
      unfold Live at hl ⊢
      rw [emitIf_ops] at hl
      exact hl

/-- after the channel is cleaned up its operations are over -/
theorem chanCleanup_dead {s : SConn} {c : Nat} {ch : SChan} (h : Tab s []) (hc : s.chans[c]? = some ch) (hd : ch.destroyed = false)
    (i : Nat) (op : SOp) (ho : (chanCleanup s c).ops[i]? = some op) (hch : op.chan = c) : op.state = .dead := by
  refine Classical.byContradiction fun hne => ?_
  obtain ⟨op0, h0, hsame, hdd⟩ := (chanCleanup_frame s c).dead i op ho
  have hl : Live s i op0 := ⟨h0, fun e => hne (hdd e)⟩
  have hch0 : op0.chan = c := by rw [← hch]; exact hsame.2.1.symm
  obtain ⟨_, h2⟩ := h i op0 hl
  rcases h2 with h2 | ⟨ch', h2, h3⟩
  · simp at h2
  · rw [hch0, hc] at h2; cases h2
    have hm : i ∈ ch.ops.map (·.2) := find?_mem h3
    unfold chanCleanup at ho
    simp only [hc, hd, Bool.false_eq_true, if_false, emitIf_ops] at ho
    exact hne ((cleanupAll_frame _ _).2 i hm op ho)

/-- with empty tables nothing is lost by accident -/
theorem cleanup_aborted {s : SConn} {i : Nat} (h : s.opByIOID = []) :
    (cleanup s i).aborted = s.aborted ∧ (cleanup s i).opByIOID = [] := by
  unfold cleanup
  split
  · exact ⟨rfl, h⟩
  · split
    · exact ⟨rfl, h⟩
    · simp only [emitIf_aborted, emitIf_opByIOID]
      simp [forget, losesLive, Map.find?, Map.erase, h]

theorem cleanupAll_aborted (is : List Nat) : ∀ {s : SConn}, s.opByIOID = [] →
    (cleanupAll s is).aborted = s.aborted ∧ (cleanupAll s is).opByIOID = [] := by
  induction is with
  | nil => exact fun h => ⟨rfl, h⟩
  | cons i is ih =>
    intro s h
    have h1 := cleanup_aborted (i := i) h
    have h2 := ih (s := cleanup s i) h1.2
    exact ⟨h2.1.trans h1.1, h2.2⟩

theorem chanCleanupAll_frame (cs : List Nat) : ∀ {s : SConn}, s.opByIOID = [] →
    Frame s (chanCleanupAll s cs) ∧ (chanCleanupAll s cs).aborted = s.aborted := by
  induction cs with
  | nil => exact fun _ => ⟨.refl _, rfl⟩
  | cons c cs ih =>
    intro s h
    have h1 : (chanCleanup s c).aborted = s.aborted ∧ (chanCleanup s c).opByIOID = [] := by
      unfold chanCleanup
      split
      · exact ⟨rfl, h⟩
      · split
        · exact ⟨rfl, h⟩
        · simp only [emitIf_aborted, emitIf_opByIOID]
          exact cleanupAll_aborted _ (by simpa [SConn.modChan] using h)
    have h2 := ih (s := chanCleanup s c) h1.2
    exact ⟨(chanCleanup_frame s c).trans h2.1, h2.2.trans h1.1⟩

theorem disconnect_dead {s : SConn} (ho : s.isOpen = true) (h : Tab s []) :
    (∀ i op, ¬ Live (disconnect s) i op) ∧ (disconnect s).aborted = s.aborted ∧ (disconnect s).pending = s.pending
      ∧ (disconnect s).isOpen = false := by
  unfold disconnect
  simp only [ho, if_true]
  generalize hs1 : { s with isOpen := false, opByIOID := [], chanBySID := [] } = s1
  have ho1 : s1.opByIOID = [] := by rw [← hs1]
  have h1 := cleanupAll_frame (s.opByIOID.map (·.2)) s1
  have h2 := cleanupAll_aborted (s.opByIOID.map (·.2)) ho1
  have h3 := chanCleanupAll_frame (s.chanBySID.map (·.2)) h2.2
  refine ⟨?_, ?_, ?_, ?_⟩
  · rintro i op ⟨hi, hne⟩
    obtain ⟨o1, ho1', hs1', hd1⟩ := h3.1.dead i op hi
    obtain ⟨o0, ho0, hs0, hd0⟩ := h1.1.dead i o1 ho1'
    have hl : Live s i o0 := ⟨by rw [← hs1] at ho0; exact ho0, fun e => hne (hd1 (hd0 e))⟩
    have := (h i o0 hl).1
    exact hne (hd1 (h1.2 i (find?_mem this) o1 ho1'))
  · rw [h3.2, h2.1, ← hs1]
  · rw [h3.1.pending, h1.1.pending, ← hs1]
  · rw [h3.1.isOpen, h1.1.isOpen, ← hs1]

/-! ### the invariant -/

structure TabInv (s : SConn) : Prop where
  pending : s.pending = []
  aborted : s.aborted = false
  opened : s.isOpen = true → Tab s [] ∧ SidOK s
  closed : s.isOpen = false → ∀ i op, ¬ Live s i op

theorem disconnect_inv {s : SConn} (h : TabInv s) : TabInv (disconnect s) := by
  cases ho : s.isOpen
  · have : disconnect s = s := by unfold disconnect; simp [ho]
    rw [this]; exact h
  · obtain ⟨a, b, c, d⟩ := disconnect_dead ho (h.opened ho).1
    exact ⟨c.trans h.pending, b.trans h.aborted, fun e => (by rw [d] at e; cases e), fun _ => a⟩

/-- a change of operations which leaves the tables alone and revives nothing -/
theorem TabInv.mono {s t : SConn} (h : TabInv s) (h1 : t.pending = s.pending) (h2 : t.aborted = s.aborted)
    (h3 : t.isOpen = s.isOpen) (h4 : t.opByIOID = s.opByIOID) (h5 : t.chans = s.chans) (h6 : t.chanBySID = s.chanBySID)
    (hl : ∀ i op, Live t i op → ∃ op0, Live s i op0 ∧ op.ioid = op0.ioid ∧ op.chan = op0.chan) : TabInv t := by
  refine ⟨h1.trans h.pending, h2.trans h.aborted, fun e => ?_, fun e i op ho => ?_⟩
  · obtain ⟨a, b⟩ := h.opened (by rw [← h3]; exact e)
    refine ⟨a.mono h4 h5 hl, ?_⟩
    unfold SidOK; rw [h5, h6]; exact b
  · obtain ⟨op0, h0, _⟩ := hl i op ho
    exact h.closed (by rw [← h3]; exact e) i op0 h0

theorem TabInv.modOp {s t : SConn} {i : Nat} {f : SOp → SOp} (h : TabInv s) (ht : t.ops = (s.modOp i f).ops) (hf : ∀ op : SOp, op.Same (f op))
    (hd : ∀ op, s.ops[i]? = some op → op.state = .dead → (f op).state = .dead) (h1 : t.pending = s.pending) (h2 : t.aborted = s.aborted)
    (h3 : t.isOpen = s.isOpen) (h4 : t.opByIOID = s.opByIOID) (h5 : t.chans = s.chans) (h6 : t.chanBySID = s.chanBySID) : TabInv t :=
  h.mono h1 h2 h3 h4 h5 h6 (live_modOp ht hf hd)

theorem doReply_inv {s : SConn} (h : TabInv s) (i v ok src) : TabInv (doReply s i v ok src) := by
  unfold doReply
  split
  · exact h
  · rename_i op ho
    split
    · exact h
    · rename_i hc
      simp only [not_or] at hc
      split
      · exact h
      · refine h.modOp (i := i) (f := fun o => { o with state := replyState op ok }) (by simp) (fun _ => ⟨rfl, rfl, rfl⟩) ?_
          (by simp) (by simp) (by simp) (by simp) (by simp) (by rw [emitIf_chanBySID]; rfl)
        intro o h1 h2
        rw [ho] at h1; cases h1
        exact absurd h2 hc.2.1

theorem gprConnect_inv {s : SConn} (h : TabInv s) (i p m) : TabInv (gprConnect s i p m) := by
  unfold gprConnect
  split
  · exact h
  · split
    · exact h
    · have : TabInv (s.modOp i fun op => { op with typ := p }) :=
        h.modOp rfl (fun _ => ⟨rfl, rfl, rfl⟩) (fun _ _ h => h) rfl rfl rfl rfl rfl rfl
      simp only
      split
      · exact doReply_inv this ..
      · exact this

theorem newOp_inv {s : SConn} (h : TabInv s) (ho : s.isOpen = true) {c ioid : Nat} (k sc st) (hc : c < s.chans.length)
    (hf : Map.find? s.opByIOID ioid = none) : TabInv (newOp s c ioid k sc st) := by
  obtain ⟨ht, hs⟩ := h.opened ho
  refine ⟨h.pending, h.aborted, fun _ => ⟨?_, ?_⟩, fun e => ?_⟩
  · rintro i op ⟨hi, hne⟩
    have hi' : (s.ops ++ [{ chan := c, ioid := ioid, kind := k, subcmd := sc, state := st : SOp }])[i]? = some op := hi
    unfold InConn InChan
    show Map.find? (Map.insert s.opByIOID ioid s.ops.length) op.ioid = some i ∧ (i ∈ [] ∨
      ∃ ch, (s.chans.modify c fun ch => { ch with ops := Map.insert ch.ops ioid s.ops.length })[op.chan]? = some ch ∧ _)
    by_cases hlt : i < s.ops.length
    · rw [List.getElem?_append_left hlt] at hi'
      obtain ⟨h1, h2⟩ := ht i op ⟨hi', hne⟩
      have hne' : ioid ≠ op.ioid := by
        intro e; unfold InConn at h1; rw [← e, hf] at h1; cases h1
      refine ⟨by rw [find?_insert, if_neg hne']; exact h1, ?_⟩
      rcases h2 with h2 | ⟨ch, h2, h3⟩
      · simp at h2
      · right
        rw [List.getElem?_modify, h2]
        by_cases e : c = op.chan
        · refine ⟨{ ch with ops := Map.insert ch.ops ioid s.ops.length }, by simp [e], ?_⟩
          show Map.find? (Map.insert ch.ops ioid _) _ = _
          rw [find?_insert, if_neg hne']; exact h3
        · exact ⟨ch, by simp [e], h3⟩
    · have hi2 : i = s.ops.length := by
        have := (List.getElem?_eq_some_iff.1 hi').1
        simp at this; omega
      subst hi2
      simp at hi'
      subst hi'
      refine ⟨by simp [find?_insert], .inr ?_⟩
      obtain ⟨ch, hch⟩ : ∃ ch, s.chans[c]? = some ch := ⟨s.chans[c], by simp [hc]⟩
      refine ⟨{ ch with ops := Map.insert ch.ops ioid s.ops.length }, ?_, ?_⟩
      · simp [hch]
      · simp [find?_insert]
  · intro sid c' hc'
    show c' < (List.modify _ _ _).length
    rw [List.length_modify]
    exact hs sid c' hc'
  · have : s.isOpen = false := e
    rw [ho] at this; cases this

theorem forget_inv {s : SConn} (h : TabInv s) {i : Nat} {op : SOp} {f : SOp → SOp} (hl : Live s i op) (hf : ∀ o : SOp, o.Same (f o))
    (hd : ∀ o, (f o).state = .dead) (t : SConn) (ht : t.ops = (s.modOp i f).ops)
    (h1 : t.pending = s.pending) (h2 : t.aborted = s.aborted)
    (h3 : t.isOpen = s.isOpen) (h4 : t.opByIOID = s.opByIOID) (h5 : t.chans = s.chans) (h6 : t.chanBySID = s.chanBySID) :
    TabInv (forget t i op) := by
  have ho : s.isOpen = true := by
    cases e : s.isOpen
    · exact absurd hl (h.closed e i op)
    · rfl
  obtain ⟨hT, hS⟩ := h.opened ho
  have hlive := live_modOp ht hf (fun o _ _ => hd o)
  have key := forget_tab (s := t) (i := i) (op := op) (L := []) (by
      intro j o hji hlj
      obtain ⟨o0, hl0, e1, e2⟩ := hlive j o hlj
      have := hT j o0 hl0
      unfold InConn InChan at this ⊢
      rw [h4, h5, e1, e2]; exact this) (by
      intro o hio
      rw [ht] at hio
      unfold SConn.modOp at hio
      rw [List.getElem?_modify, hl.1] at hio
      simp at hio; rw [← hio]; exact hd op) (by
      intro j hj
      rw [h4] at hj
      have := (hT i op hl).1
      unfold InConn at this
      rw [this] at hj; cases hj; rfl)
  refine ⟨by rw [forget_pending, h1]; exact h.pending, by rw [key.2, h2]; exact h.aborted, fun _ => ⟨key.1, ?_⟩, fun e => ?_⟩
  · intro sid c hc
    show c < (List.modify _ _ _).length
    rw [List.length_modify, h5]
    exact hS sid c (by rw [← h6]; exact hc)
  · rw [forget_isOpen, h3, ho] at e; cases e

theorem cleanup_inv_of {s : SConn} {i : Nat} (hp : s.pending = []) (ha : s.aborted = false) (ho : s.isOpen = true)
    (hs : ∀ j o, j ≠ i → Live s j o → InConn s j o ∧ (j ∈ [] ∨ InChan s j o))
    (hu : ∀ op, Live s i op → ∀ j, Map.find? s.opByIOID op.ioid = some j → j = i) (hS : SidOK s) : TabInv (cleanup s i) := by
  have h1 := cleanup_tab hs hu
  have h2 := (cleanup_frame s i).1
  refine ⟨h2.pending.trans hp, h1.2.trans ha, fun _ => ⟨h1.1, ?_⟩, fun e => by rw [h2.isOpen, ho] at e; cases e⟩
  intro sid c hc
  rw [h2.nchans]
  exact hS sid c (by rw [← h2.chanBySID]; exact hc)

theorem chanCleanup_inv {s : SConn} (h : TabInv s) (c : Nat) : TabInv (chanCleanup s c) := by
  have h2 := chanCleanup_frame s c
  cases ho : s.isOpen
  · -- nothing is live
    have hT : Tab s [] := fun i op hl => absurd hl (h.closed ho i op)
    have h1 := chanCleanup_tab (c := c) hT
    refine ⟨h2.pending.trans h.pending, h1.2.trans h.aborted, fun e => (by rw [h2.isOpen, ho] at e; cases e), ?_⟩
    rintro _ i op ⟨hi, hne⟩
    obtain ⟨o0, h0, _, hd⟩ := h2.dead i op hi
    exact h.closed ho i o0 ⟨h0, fun e => hne (hd e)⟩
  · obtain ⟨hT, hS⟩ := h.opened ho
    have h1 := chanCleanup_tab (c := c) hT
    refine ⟨h2.pending.trans h.pending, h1.2.trans h.aborted, fun _ => ⟨h1.1, ?_⟩, fun e => by rw [h2.isOpen, ho] at e; cases e⟩
    intro sid c hc
    rw [h2.nchans]
    exact hS sid c (by rw [← h2.chanBySID]; exact hc)

/-- events other than the destruction of a subscription by a MONITOR message (src/servermon.cpp:646) -/
def Ev.plain : Ev → Bool
  | .monCtl _ _ _ d => !d
  | _ => true

theorem step_inv {s : SConn} (h : TabInv s) (e : Ev) (hp : e.plain = true) : TabInv (step s e) := by
  unfold step
  split
  · exact h
  · cases e <;> simp only
    case gprInit k sid ioid sc =>
      split
      · rename_i hc
        unfold gprInit
        split
        · rename_i c h1 h2
          have hn : TabInv (newOp s c ioid k sc .creating) := newOp_inv h hc.1 k sc _ ((h.opened hc.1).2 sid c h1) h2
          simp only
          split
          · exact gprConnect_inv hn ..
          · exact hn
        · exact disconnect_inv h
      · exact h
    case gprExec k ioid sc ok =>
      split
      · unfold gprExec
        split
        · exact h
        · rename_i i hi
          split
          · exact h
          · rename_i op ho
            split
            · exact h
            · split
              · exact disconnect_inv h
              · split
                · exact disconnect_inv h
                · split
                  · exact disconnect_inv h
                  · split
                    · rename_i hs
                      exact h.modOp (i := i)
                        (f := fun op => { op with last := op.last || sc &&& 0x10 != 0, subcmd := sc, state := .executing }) rfl
                        (fun _ => ⟨rfl, rfl, rfl⟩) (fun o h1 h2 => by rw [ho] at h1; cases h1; rw [hs] at h2; cases h2)
                        rfl rfl rfl rfl rfl rfl
                    · exact h
      · exact h
    case monInit sid ioid =>
      split
      · rename_i hc
        unfold monInit
        split
        · rename_i c h1 h2
          exact newOp_inv h hc _ _ _ ((h.opened hc).2 sid c h1) h2
        · exact disconnect_inv h
      · exact h
    case monCtl sid ioid st d =>
      have hd : d = false := by simpa [Ev.plain] using hp
      subst hd
      split
      · unfold monCtl
        split
        · exact h
        · rename_i i hi
          split
          · exact h
          · rename_i op ho
            split
            · exact h
            · rename_i hnd
              split
              · exact disconnect_inv h
              · split
                · exact disconnect_inv h
                · simp only [Bool.false_eq_true, if_false]
                  cases st with
                  | none => exact h
                  | some b =>
                    exact h.modOp (i := i) (f := fun op => { op with state := if b then .executing else .idle }) rfl
                      (fun _ => ⟨rfl, rfl, rfl⟩) (fun o h1 h2 => by rw [ho] at h1; cases h1; exact absurd h2 hnd)
                      rfl rfl rfl rfl rfl rfl
      · exact h
    case getField sid ioid =>
      split
      · rename_i hc
        unfold getField
        split
        · rename_i c h1 h2
          have hn : TabInv (newOp s c ioid .info 0 .executing) := newOp_inv h hc _ _ _ ((h.opened hc).2 sid c h1) h2
          exact hn.mono rfl rfl rfl rfl rfl rfl (fun i op h => ⟨op, h, rfl, rfl⟩)
        · exact h
      · exact h
    case cancel sid ioid =>
      split
      · unfold cancelRequest
        split
        · exact h
        · rename_i i hi
          split
          · exact h
          · rename_i op ho
            split
            · exact h
            · split
              · rename_i hs
                exact h.modOp (i := i) (f := fun op => { op with state := .idle }) (by simp)
                  (fun _ => ⟨rfl, rfl, rfl⟩) (fun o h1 h2 => by rw [ho] at h1; cases h1; rw [hs] at h2; cases h2)
                  (by simp) (by simp) (by simp) (by simp) (by simp) (by simp [emitIf_chanBySID, SConn.modOp])
              · exact h
      · exact h
    case destroy sid ioid =>
      split
      · rename_i hc
        obtain ⟨hT, hS⟩ := h.opened hc
        unfold destroyRequest
        split
        · exact h
        · rename_i i hi
          have key : ∀ u : SConn, u.ops = s.ops → u.opByIOID = Map.erase s.opByIOID ioid → u.pending = s.pending →
              u.aborted = s.aborted → u.isOpen = s.isOpen → u.chanBySID = s.chanBySID → u.chans.length = s.chans.length →
              (∀ j o, Live s j o → o.ioid ≠ ioid → InChan s j o → InChan u j o) → TabInv (cleanup u i) := by
            intro u h1 h2 h3 h4 h5 h6 h7 h8
            refine cleanup_inv_of (h3.trans h.pending) (h4.trans h.aborted) (h5.trans hc) ?_ ?_ ?_
            · intro j o hji hl
              have hl' : Live s j o := by unfold Live at hl ⊢; rw [← h1]; exact hl
              obtain ⟨a, b⟩ := hT j o hl'
              have hne : o.ioid ≠ ioid := by
                intro e; unfold InConn at a; rw [e, hi] at a; cases a; exact hji rfl
              refine ⟨?_, b.imp id (h8 j o hl' hne)⟩
              unfold InConn at a ⊢
              rw [h2, find?_erase, if_neg (Ne.symm hne)]; exact a
            · intro op hl j hj
              have hl' : Live s i op := by unfold Live at hl ⊢; rw [← h1]; exact hl
              have a := (hT i op hl').1
              unfold InConn at a
              rw [h2, find?_erase] at hj
              split at hj
              · cases hj
              · rw [a] at hj; cases hj; rfl
            · intro sid' c' h'
              rw [h7]; exact hS sid' c' (by rw [← h6]; exact h')
          apply key
          · split <;> rfl
          · split <;> rfl
          · split <;> rfl
          · split <;> rfl
          · split <;> rfl
          · split <;> rfl
          · split
            · rfl
            · show (List.modify _ _ _).length = _; simp
          · intro j o hl hne hch
            split
            · exact hch
            · rename_i c _
              obtain ⟨ch, a, b⟩ := hch
              show ∃ ch, (s.chans.modify c _)[o.chan]? = some ch ∧ _
              rw [List.getElem?_modify, a]
              by_cases e : c = o.chan
              · refine ⟨{ ch with ops := Map.erase ch.ops ioid }, by simp [e], ?_⟩
                show Map.find? (Map.erase ch.ops ioid) o.ioid = some j
                rw [find?_erase, if_neg (Ne.symm hne)]; exact b
              · exact ⟨ch, by simp [e], b⟩
      · exact h
    case createChan cid a b c d =>
      split
      · rename_i hc
        obtain ⟨hT, hS⟩ := h.opened hc
        refine ⟨h.pending, h.aborted, fun _ => ⟨?_, ?_⟩, fun e => ?_⟩
        · intro i op hl
          obtain ⟨x, y⟩ := hT i op hl
          refine ⟨x, y.imp id ?_⟩
          rintro ⟨ch, h1, h2⟩
          refine ⟨ch, ?_, h2⟩
          show (s.chans ++ _)[op.chan]? = _
          rw [List.getElem?_append_left (List.getElem?_eq_some_iff.1 h1).1]; exact h1
        · intro sid c' h'
          show c' < (s.chans ++ _).length
          have h' : Map.find? (Map.insert s.chanBySID _ s.chans.length) sid = some c' := h'
          rw [find?_insert] at h'
          rw [List.length_append]
          split at h'
          · cases h'; simp
          · have := hS sid c' h'; omega
        · have e : s.isOpen = false := e
          rw [hc] at e; cases e
      · exact h
    case destroyChan sid =>
      split
      · unfold destroyChan
        split
        · exact h
        · exact chanCleanup_inv h _
      · exact h
    case disconnect => exact disconnect_inv h
    case connect => exact gprConnect_inv h ..
    case setupError i =>
      unfold gprSetupError
      split
      · exact h
      · split
        · exact doReply_inv h ..
        · exact h
    case monReply i ok =>
      unfold monReply
      split
      · exact h
      · rename_i op ho
        split
        · exact h
        · rename_i hc
          simp only [not_or, ne_eq, Decidable.not_not] at hc
          exact h.modOp (i := i) (f := fun op => { op with state := if ok then .idle else .dead }) (by simp)
            (fun _ => ⟨rfl, rfl, rfl⟩) (fun o h1 h2 => by rw [ho] at h1; cases h1; rw [hc.2.1] at h2; cases h2)
            (by simp) (by simp) (by simp) (by simp) (by simp) (by simp [emitIf_chanBySID, SConn.modOp, SConn.emit])
    case monFinish i =>
      unfold monFinish
      split
      · exact h
      · rename_i op ho
        split
        · exact h
        · exact h.modOp (i := i) (f := fun op => { op with state := .dead }) (by simp)
            (fun _ => ⟨rfl, rfl, rfl⟩) (fun o h1 h2 => rfl) rfl rfl rfl rfl rfl rfl
    case reply k v =>
      unfold useHandle
      split
      · exact h
      · split
        · exact h
        · rename_i op ho
          split
          · unfold infoReply
            simp only [ho]
            split
            · exact h
            · rename_i hc
              simp only [not_or, ne_eq, Decidable.not_not] at hc
              exact forget_inv h (f := fun op => { op with state := .dead }) ⟨ho, by simp [hc.2.1]⟩ (fun _ => ⟨rfl, rfl, rfl⟩)
                (fun _ => rfl) _ rfl rfl rfl rfl rfl rfl rfl
          · exact doReply_inv h ..
    case error k =>
      unfold useHandle
      split
      · exact h
      · split
        · exact h
        · rename_i op ho
          split
          · unfold infoReply
            simp only [ho]
            split
            · exact h
            · rename_i hc
              simp only [not_or, ne_eq, Decidable.not_not] at hc
              exact forget_inv h (f := fun op => { op with state := .dead }) ⟨ho, by simp [hc.2.1]⟩ (fun _ => ⟨rfl, rfl, rfl⟩)
                (fun _ => rfl) _ rfl rfl rfl rfl rfl rfl rfl
          · exact doReply_inv h ..
    case setOnClose i =>
      unfold setOnClose
      split
      · exact h
      · rename_i op ho
        split
        · exact h
        · exact h.modOp (i := i) (f := fun op => { op with onClose := true }) rfl
            (fun _ => ⟨rfl, rfl, rfl⟩) (fun _ _ h => h) rfl rfl rfl rfl rfl rfl
    case setOnCancel k =>
      unfold setOnCancel
      split
      · exact h
      · rename_i i hi
        refine h.modOp (i := i) (f := fun op => if op.state = .dead ∨ !op.kind.isGPR then op else { op with onCancel := true }) rfl
            (fun o => ?_) (fun o _ h => ?_) rfl rfl rfl rfl rfl rfl
        · split <;> exact ⟨rfl, rfl, rfl⟩
        · simp [h]
    case closeChan c => exact chanCleanup_inv h c
    case runPending =>
      unfold runPending
      rw [h.pending]
      exact h

theorem start_inv : TabInv Spec.start :=
  ⟨rfl, rfl, fun _ => ⟨fun i op hl => by simp [Live, Spec.start] at hl, fun sid c h => by simp [Spec.start, Map.find?] at h⟩,
    fun e => by simp [Spec.start] at e⟩

theorem run_inv (es : List Ev) (hp : ∀ e ∈ es, e.plain = true) : ∀ {s : SConn}, TabInv s → TabInv (run s es) := by
  induction es with
  | nil => exact fun h => h
  | cons e es ih =>
    intro s h
    exact ih (fun e he => hp e (by simp [he])) (step_inv h e (hp e (by simp)))

/-! ### which channel an operation belongs to -/

def CreatedOK (s : SConn) : Prop := ∀ i c, Obs.created i c ∈ s.log → ∃ op, s.ops[i]? = some op ∧ op.chan = c

theorem OpStep.same {i n op op' obs b} (h : OpStep i n op op' obs b) : op.Same op' ∧ ∀ j c, Obs.created j c ∉ obs := by
  cases h
  case cancel h _ _ _ _ => exact ⟨h, fun j c hm => by simp only [List.mem_append] at hm; rcases hm with hm | hm <;> split at hm <;> simp at hm⟩
  case teardown h _ _ _ _ =>
    exact ⟨h, fun j c hm => by
      simp only [List.mem_append] at hm
      rcases hm with (hm | hm) | hm <;> (try split at hm) <;> simp at hm⟩
  all_goals first | exact ⟨by assumption, by simp⟩

theorem Micro.createdOK {Q} {s t : SConn} (m : Micro Q s t) (hs : CreatedOK s) : CreatedOK t := by
  intro i c hm
  cases m with
  | quiet obs hq ho hl hh hi =>
    rw [hl, List.mem_append] at hm
    rcases hm with hm | hm
    · rw [ho]; exact hs i c hm
    · have := hq i _ hm; simp [Obs.about] at this
  | new op c' h1 h2 h3 h4 h5 ho hl hh hi =>
    rw [hl, List.mem_append] at hm
    rcases hm with hm | hm
    · obtain ⟨o, a, b⟩ := hs i c hm
      exact ⟨o, by rw [ho, List.getElem?_append_left (List.getElem?_eq_some_iff.1 a).1]; exact a, b⟩
    · simp at hm; rw [hm.1, hm.2]; exact ⟨op, by rw [ho]; simp, h5⟩
  | newInfo op c' h1 h2 h3 h4 h5 ho hl hh hi =>
    rw [hl, List.mem_append] at hm
    rcases hm with hm | hm
    · obtain ⟨o, a, b⟩ := hs i c hm
      exact ⟨o, by rw [ho, List.getElem?_append_left (List.getElem?_eq_some_iff.1 a).1]; exact a, b⟩
    · simp at hm; rw [hm.1, hm.2]; exact ⟨op, by rw [ho]; simp, h5⟩
  | op j op op' obs b h st ho hl hh hr hi =>
    rw [hl, List.mem_append] at hm
    rcases hm with hm | hm
    · obtain ⟨o, a, b⟩ := hs i c hm
      by_cases e : j = i
      · subst e
        rw [h] at a; cases a
        refine ⟨op', ?_, st.same.1.2.1.trans b⟩
        rw [ho, List.getElem?_set]
        simp [(List.getElem?_eq_some_iff.1 h).1]
      · exact ⟨o, by rw [ho, List.getElem?_set_ne e]; exact a, b⟩
    · exact absurd hm (st.same.2 i c)

theorem Micros.createdOK {Q} {s t : SConn} (m : Micros Q s t) : CreatedOK s → CreatedOK t := by
  induction m with
  | nil => exact id
  | cons h _ ih => exact fun hs => ih (h.createdOK hs)

theorem run_createdOK (es : List Ev) : CreatedOK (run Spec.start es) :=
  (run_micros es _ start_handlesOK).createdOK (fun i c h => by simp [Spec.start] at h)

end Pvxs.Server
