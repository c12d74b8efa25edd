import Verif.Spec.ServerConn
/-
The life of one operation: every event is a sequence of small steps, each of which concerns one operation.
-/
namespace Pvxs.Server
open Wire (Byte)

/-- an operation keeps what it is -/
def SOp.Same (a b : SOp) : Prop := b.kind = a.kind ∧ b.chan = a.chan ∧ b.ioid = a.ioid

/-- the small steps of operation `i`; `n`: number of ExecOps before -/
inductive OpStep (i n : Nat) : SOp → SOp → List Obs → Bool → Prop
  | edit {op op'} (h : op.Same op') (hs : op'.state = op.state) (hc : op'.onClose = op.onClose)
      (hx : op'.onCancel = true → op'.kind.isGPR = true ∨ op.onCancel = true) : OpStep i n op op' [] false
  | setClose {op op'} (h : op.Same op') (hs : op'.state = op.state) (hl : op.state ≠ .dead) (hc : op'.onClose = true)
      (hx : op'.onCancel = op.onCancel) : OpStep i n op op' [.setClose i] false
  | setupOK {op op'} (h : op.Same op') (hk : op.kind ≠ .info) (hs : op.state = .creating) (hs' : op'.state = .idle)
      (hc : op'.onClose = op.onClose) (hx : op'.onCancel = op.onCancel) : OpStep i n op op' [.replied i .setup true] false
  | setupErr {op op'} (h : op.Same op') (hk : op.kind ≠ .info) (hs : op.state = .creating) (hs' : op'.state = .dead)
      (hc : op'.onClose = op.onClose) (hx : op'.onCancel = op.onCancel) :
      OpStep i n op op' [.replied i .setup false, .ended i .reply] false
  | reply {op op'} (k : Nat) (ok : Bool) (h : op.Same op') (hk : op.kind ≠ .mon) (hs : op.state = .executing)
      (hs' : op'.state = .idle)
      (hc : op'.onClose = op.onClose) (hx : op'.onCancel = op.onCancel) : OpStep i n op op' [.replied i (.handle k) ok] false
  | replyLast {op op'} (k : Nat) (ok : Bool) (h : op.Same op') (hk : op.kind ≠ .mon) (hs : op.state = .executing)
      (hs' : op'.state = .dead)
      (hc : op'.onClose = op.onClose) (hx : op'.onCancel = op.onCancel) :
      OpStep i n op op' [.replied i (.handle k) ok, .ended i .reply] false
  | exec {op op'} (c : Call) (h : op.Same op') (hk : op.kind.isGPR = true) (hs : op.state = .idle)
      (hs' : op'.state = .executing) (hc : op'.onClose = op.onClose) (hx : op'.onCancel = op.onCancel) :
      OpStep i n op op' [.exec i n c] true
  | cancel {op op'} (h : op.Same op') (hs : op.state = .executing) (hs' : op'.state = .idle)
      (hc : op'.onClose = op.onClose) (hx : op'.onCancel = op.onCancel) :
      OpStep i n op op' ((if op.onCancel then [.onCancel i] else []) ++ (if op.kind != .mon then [.cancelled i] else [])) false
  | monRun {op op'} (h : op.Same op') (hk : op.kind = .mon) (hs : op.state ≠ .creating ∧ op.state ≠ .dead)
      (hs' : op'.state ≠ .creating ∧ op'.state ≠ .dead)
      (hc : op'.onClose = op.onClose) (hx : op'.onCancel = op.onCancel) : OpStep i n op op' [] false
  | monEnd {op op'} (h : op.Same op') (hk : op.kind = .mon) (hs : op.state = .executing) (hs' : op'.state = .dead)
      (hc : op'.onClose = op.onClose) (hx : op'.onCancel = op.onCancel) : OpStep i n op op' [.ended i .reply] false
  | teardown {op op'} (h : op.Same op') (hs : op.state ≠ .dead) (hs' : op'.state = .dead) (hc : op'.onClose = false)
      (hx : op'.onCancel = false) :
      OpStep i n op op' ((if op.state == .executing && op.onCancel then [.onCancel i] else [])
        ++ [.ended i .teardown] ++ (if op.onClose then [.onClose i] else [])) false

/-- which operation an observation is about -/
def Obs.about (i : Nat) : Obs → Bool
  | .created j _ | .exec j _ _ | .replied j _ _ | .cancelled j | .onCancel j | .onClose j | .setClose j | .ended j _ => j == i
  | .chanCreated _ | .chanGone _ | .chanClosed _ => false

/-- the small steps of a connection; `Q`: the ExecOps which may reply -/
inductive Micro (Q : Nat → Prop) (s t : SConn) : Prop
  | quiet (obs : List Obs) (hq : ∀ i, ∀ o ∈ obs, o.about i = false) (ho : t.ops = s.ops) (hl : t.log = s.log ++ obs)
      (hh : t.handles = s.handles) (hi : t.isOpen = true → s.isOpen = true)
  | new (op : SOp) (c : Nat) (hs : op.state = .creating) (hk : op.kind ≠ .info) (hc : op.onClose = false)
      (hx : op.onCancel = false) (hch : op.chan = c) (ho : t.ops = s.ops ++ [op]) (hl : t.log = s.log ++ [.created s.ops.length c])
      (hh : t.handles = s.handles) (hi : s.isOpen = true)
  | newInfo (op : SOp) (c : Nat) (hs : op.state = .executing) (hk : op.kind = .info) (hc : op.onClose = false)
      (hx : op.onCancel = false) (hch : op.chan = c) (ho : t.ops = s.ops ++ [op])
      (hl : t.log = s.log ++ [.created s.ops.length c, .exec s.ops.length s.handles.length .nothing])
      (hh : t.handles = s.handles ++ [s.ops.length]) (hi : s.isOpen = true)
  | op (i : Nat) (op op' : SOp) (obs : List Obs) (b : Bool) (h : s.ops[i]? = some op)
      (st : OpStep i s.handles.length op op' obs b) (ho : t.ops = s.ops.set i op') (hl : t.log = s.log ++ obs)
      (hh : t.handles = if b then s.handles ++ [i] else s.handles)
      (hr : ∀ k ok, Obs.replied i (.handle k) ok ∈ obs → s.handles[k]? = some i ∧ s.isOpen = true ∧ Q k)
      (hi : t.isOpen = true → s.isOpen = true)

inductive Micros (Q : Nat → Prop) : SConn → SConn → Prop
  | nil (s) : Micros Q s s
  | cons {s t u} (h : Micro Q s t) (hs : Micros Q t u) : Micros Q s u

variable {Q : Nat → Prop}

theorem Micros.one {s t} (h : Micro Q s t) : Micros Q s t := .cons h (.nil _)
theorem Micros.trans {s t u} (a : Micros Q s t) (b : Micros Q t u) : Micros Q s u := by
  induction a with
  | nil => exact b
  | cons h _ ih => exact .cons h (ih b)

theorem modify_eq_set {α} (l : List α) (i : Nat) (f : α → α) (a : α) (h : l[i]? = some a) : l.modify i f = l.set i (f a) := by
  apply List.ext_getElem?
  intro j
  rw [List.getElem?_modify, List.getElem?_set]
  by_cases hj : i = j
  · subst hj
    obtain ⟨hl, rfl⟩ := List.getElem?_eq_some_iff.1 h
    simp [hl]
  · simp [hj]

/-- nothing about operations changes -/
theorem Micro.silent {s t : SConn} (ho : t.ops = s.ops) (hl : t.log = s.log) (hh : t.handles = s.handles)
    (hi : t.isOpen = true → s.isOpen = true := by simp) : Micro Q s t :=
  .quiet [] (by simp) ho (by simp [hl]) hh hi

theorem emitIf_log (s : SConn) (b : Bool) (o : Obs) : (s.emitIf b o).log = s.log ++ if b then [o] else [] := by
  cases b <;> simp [SConn.emitIf, SConn.emit]
theorem emitIf_ops (s : SConn) (b : Bool) (o : Obs) : (s.emitIf b o).ops = s.ops := by
  cases b <;> simp [SConn.emitIf, SConn.emit]
theorem emitIf_handles (s : SConn) (b : Bool) (o : Obs) : (s.emitIf b o).handles = s.handles := by
  cases b <;> simp [SConn.emitIf, SConn.emit]
theorem emitIf_isOpen (s : SConn) (b : Bool) (o : Obs) : (s.emitIf b o).isOpen = s.isOpen := by
  cases b <;> simp [SConn.emitIf, SConn.emit]
theorem emitIf_chans (s : SConn) (b : Bool) (o : Obs) : (s.emitIf b o).chans = s.chans := by
  cases b <;> simp [SConn.emitIf, SConn.emit]
theorem emitIf_opByIOID (s : SConn) (b : Bool) (o : Obs) : (s.emitIf b o).opByIOID = s.opByIOID := by
  cases b <;> simp [SConn.emitIf, SConn.emit]
theorem emitIf_pending (s : SConn) (b : Bool) (o : Obs) : (s.emitIf b o).pending = s.pending := by
  cases b <;> simp [SConn.emitIf, SConn.emit]
theorem emitIf_aborted (s : SConn) (b : Bool) (o : Obs) : (s.emitIf b o).aborted = s.aborted := by
  cases b <;> simp [SConn.emitIf, SConn.emit]

@[simp] theorem emit_log (s : SConn) (o : Obs) : (s.emit o).log = s.log ++ [o] := rfl
@[simp] theorem emit_ops (s : SConn) (o : Obs) : (s.emit o).ops = s.ops := rfl
@[simp] theorem emit_handles (s : SConn) (o : Obs) : (s.emit o).handles = s.handles := rfl
@[simp] theorem emit_isOpen (s : SConn) (o : Obs) : (s.emit o).isOpen = s.isOpen := rfl
@[simp] theorem emit_chans (s : SConn) (o : Obs) : (s.emit o).chans = s.chans := rfl
@[simp] theorem emit_opByIOID (s : SConn) (o : Obs) : (s.emit o).opByIOID = s.opByIOID := rfl
@[simp] theorem emit_pending (s : SConn) (o : Obs) : (s.emit o).pending = s.pending := rfl
@[simp] theorem emit_aborted (s : SConn) (o : Obs) : (s.emit o).aborted = s.aborted := rfl

attribute [simp] emitIf_log emitIf_ops emitIf_handles emitIf_isOpen emitIf_chans emitIf_opByIOID emitIf_pending emitIf_aborted

@[simp] theorem modOp_log (s : SConn) (i f) : (s.modOp i f).log = s.log := rfl
@[simp] theorem modOp_handles (s : SConn) (i f) : (s.modOp i f).handles = s.handles := rfl
@[simp] theorem modOp_isOpen (s : SConn) (i f) : (s.modOp i f).isOpen = s.isOpen := rfl
@[simp] theorem modOp_chans (s : SConn) (i f) : (s.modOp i f).chans = s.chans := rfl
@[simp] theorem modOp_opByIOID (s : SConn) (i f) : (s.modOp i f).opByIOID = s.opByIOID := rfl
@[simp] theorem modOp_pending (s : SConn) (i f) : (s.modOp i f).pending = s.pending := rfl
@[simp] theorem modOp_aborted (s : SConn) (i f) : (s.modOp i f).aborted = s.aborted := rfl
theorem modOp_ops (s : SConn) (i : Nat) (f) {op} (h : s.ops[i]? = some op) : (s.modOp i f).ops = s.ops.set i (f op) :=
  modify_eq_set _ _ _ _ h

@[simp] theorem modChan_log (s : SConn) (i f) : (s.modChan i f).log = s.log := rfl
@[simp] theorem modChan_ops (s : SConn) (i f) : (s.modChan i f).ops = s.ops := rfl
@[simp] theorem modChan_handles (s : SConn) (i f) : (s.modChan i f).handles = s.handles := rfl
@[simp] theorem modChan_isOpen (s : SConn) (i f) : (s.modChan i f).isOpen = s.isOpen := rfl
@[simp] theorem forget_log (s : SConn) (i op) : (forget s i op).log = s.log := rfl
@[simp] theorem forget_ops (s : SConn) (i op) : (forget s i op).ops = s.ops := rfl
@[simp] theorem forget_handles (s : SConn) (i op) : (forget s i op).handles = s.handles := rfl
@[simp] theorem forget_isOpen (s : SConn) (i op) : (forget s i op).isOpen = s.isOpen := rfl
@[simp] theorem forget_pending (s : SConn) (i op) : (forget s i op).pending = s.pending := rfl

theorem cleanup_micros (s : SConn) (i : Nat) : Micros Q s (cleanup s i) := by
  unfold cleanup
  split
  · exact .nil _
  · rename_i op h
    split
    · exact .nil _
    · rename_i hd
      refine .one (.op i op { op with state := .dead, onCancel := false, onClose := false } _ false h
        (.teardown ⟨rfl, rfl, rfl⟩ hd rfl rfl rfl) ?_ ?_ ?_ ?_ ?_)
      · simp only [emitIf_ops, forget_ops, emit_ops]
        rw [modOp_ops (op := op) _ _ _ (by simpa using h), emitIf_ops]
      · simp
      · simp
      · intro k ok hm
        exfalso
        revert hm
        split <;> split <;> simp
      · simp

theorem cleanupAll_micros (is : List Nat) : ∀ s : SConn, Micros Q s (cleanupAll s is) := by
  induction is with
  | nil => exact fun s => .nil s
  | cons i is ih => exact fun s => (cleanup_micros s i).trans (ih _)

theorem chanCleanup_micros (s : SConn) (c : Nat) : Micros Q s (chanCleanup s c) := by
  unfold chanCleanup
  split
  · exact .nil _
  · rename_i ch h
    split
    · exact .nil _
    · refine .cons (t := (s.modChan c fun ch => { ch with destroyed := true, ops := [], onClose := false }).emit (.chanGone c))
        (.quiet [.chanGone c] (by simp [Obs.about]) rfl rfl rfl (by simp)) ?_
      refine (cleanupAll_micros (ch.ops.map (·.2)) _).trans (.one (.quiet (if ch.onClose then [.chanClosed c] else []) ?_ ?_ ?_ ?_ ?_))
      · intro i o ho
        split at ho <;> simp at ho
        subst ho; rfl
      all_goals simp

theorem chanCleanupAll_micros (cs : List Nat) : ∀ s : SConn, Micros Q s (chanCleanupAll s cs) := by
  induction cs with
  | nil => exact fun s => .nil s
  | cons c cs ih => exact fun s => (chanCleanup_micros s c).trans (ih _)

theorem disconnect_micros (s : SConn) : Micros Q s (disconnect s) := by
  unfold disconnect
  split
  · refine .cons (t := { s with isOpen := false, opByIOID := [], chanBySID := [] }) (.silent rfl rfl rfl (by simp)) ?_
    exact (cleanupAll_micros _ _).trans (chanCleanupAll_micros _ _)
  · exact .nil _

theorem doReply_setup (s : SConn) (i : Nat) (op : SOp) (v : Option Nat) (ok : Bool) (h : s.ops[i]? = some op)
    (hk : op.kind.isGPR = true) (hs : op.state = .creating) : Micros Q s (doReply s i v ok .setup) := by
  unfold doReply
  simp only [h]
  split
  · exact .nil _
  · have hk' : op.kind ≠ .info := by intro e; rw [e] at hk; cases hk
    split
    · exact .nil _
    · cases ok
      · refine .one (.op i op { op with state := replyState op false } _ false h
          (.setupErr ⟨rfl, rfl, rfl⟩ hk' hs (by simp [replyState, hs]) rfl rfl) ?_ ?_ (by simp) (by simp) (by simp))
        · simp only [emitIf_ops, emit_ops]; exact modOp_ops _ _ _ h
        · simp [replyState, hs]
      · refine .one (.op i op { op with state := replyState op true } _ false h
          (.setupOK ⟨rfl, rfl, rfl⟩ hk' hs (by simp [replyState, hs]) rfl rfl) ?_ ?_ (by simp) (by simp) (by simp))
        · simp only [emitIf_ops, emit_ops]; exact modOp_ops _ _ _ h
        · simp [replyState, hs]

theorem doReply_handle (s : SConn) (i k : Nat) (op : SOp) (v : Option Nat) (ok : Bool) (h : s.ops[i]? = some op)
    (hk : op.kind.isGPR = true) (hs : op.state ≠ .creating) (hh : s.handles[k]? = some i) (hq : Q k) :
    doReply s i v ok (.handle k) = s ∨ Micro Q s (doReply s i v ok (.handle k)) := by
  unfold doReply
  simp only [h]
  split
  · exact .inl rfl
  · rename_i hc
    simp only [Bool.not_eq_true', not_or] at hc
    have hk' : op.kind ≠ .mon := by intro e; rw [e] at hk; cases hk
    have hs' : op.state = .executing := by
      cases e : op.state <;> simp_all
    split
    · exact .inl rfl
    · have hst : replyState op ok = .dead ∨ replyState op ok = .idle := by
        unfold replyState
        cases ok <;> simp only [hs'] <;> cases op.last <;> simp
      rcases hst with hst | hst
      · refine .inr (.op i op { op with state := replyState op ok } _ false h
          (.replyLast k ok ⟨rfl, rfl, rfl⟩ hk' hs' hst rfl rfl) ?_ ?_ (by simp) ?_ (by simp))
        · simp only [emitIf_ops, emit_ops]; exact modOp_ops _ _ _ h
        · simp [hst]
        · intro k' ok' hm
          simp at hm
          rw [hm.1]; exact ⟨hh, by simpa using hc.1, hq⟩
      · refine .inr (.op i op { op with state := replyState op ok } _ false h
          (.reply k ok ⟨rfl, rfl, rfl⟩ hk' hs' hst rfl rfl) ?_ ?_ (by simp) ?_ (by simp))
        · simp only [emitIf_ops, emit_ops]; exact modOp_ops _ _ _ h
        · simp [hst]
        · intro k' ok' hm
          simp at hm
          rw [hm.1]; exact ⟨hh, by simpa using hc.1, hq⟩

theorem gprConnect_micros (s : SConn) (i : Nat) (p : Option Nat) (m : Bool) : Micros Q s (gprConnect s i p m) := by
  unfold gprConnect
  split
  · exact .nil _
  · rename_i op h
    split
    · exact .nil _
    · rename_i hc
      simp only [not_or, ne_eq, Bool.not_eq_true', Bool.not_eq_false, Decidable.not_not] at hc
      have ho : (s.modOp i fun op => { op with typ := p }).ops = s.ops.set i { op with typ := p } := modOp_ops _ _ _ h
      refine .cons (t := s.modOp i fun op => { op with typ := p })
        (.op i op { op with typ := p } [] false h (.edit ⟨rfl, rfl, rfl⟩ rfl rfl (fun hx => .inr hx)) ho (by simp)
          (by simp) (by simp) (by simp)) ?_
      split
      · refine doReply_setup _ i { op with typ := p } _ _ ?_ hc.1 hc.2.1
        rw [ho, List.getElem?_set]
        have := (List.getElem?_eq_some_iff.1 h).1
        simp [this]
      · exact .nil _

theorem gprSetupError_micros (s : SConn) (i : Nat) : Micros Q s (gprSetupError s i) := by
  unfold gprSetupError
  split
  · exact .nil _
  · rename_i op h
    split
    · rename_i hc; exact doReply_setup _ _ op _ _ h hc.1 hc.2
    · exact .nil _

theorem newOp_micro (s : SConn) (c ioid : Nat) (k : Kind) (sc : Byte) (hk : k ≠ .info) (ho : s.isOpen = true) :
    Micro Q s (newOp s c ioid k sc .creating) :=
  .new _ c rfl hk rfl rfl rfl rfl rfl rfl ho

theorem gprInit_micros (s : SConn) (k : Kind) (sid ioid : Nat) (sc : Byte) (ho : s.isOpen = true) (hk : k.isGPR = true) :
    Micros Q s (gprInit s k sid ioid sc) := by
  unfold gprInit
  split
  · rename_i c _ _
    refine .cons (newOp_micro s c ioid k sc (by intro e; rw [e] at hk; cases hk) ho) ?_
    split
    · exact gprConnect_micros ..
    · exact .nil _
  · exact disconnect_micros _

theorem gprExec_micros (s : SConn) (k : Kind) (ioid : Nat) (sc : Byte) (ok : Bool) :
    Micros Q s (gprExec s k ioid sc ok) := by
  unfold gprExec
  split
  · exact .nil _
  · rename_i i hi
    split
    · exact .nil _
    · rename_i op h
      split
      · exact .nil _
      · split
        · exact disconnect_micros _
        · rename_i hg
          simp only [not_or, Bool.not_eq_true', Bool.not_eq_false] at hg
          split
          · exact disconnect_micros _
          · split
            · exact disconnect_micros _
            · split
              · rename_i hs
                refine .one (.op i op { op with last := op.last || sc &&& 0x10 != 0, subcmd := sc, state := .executing } _ true h
                  (.exec (callFor k sc) ⟨rfl, rfl, rfl⟩ hg.1 hs rfl rfl rfl) ?_ ?_ ?_ ?_ ?_)
                · simp only [emit_ops]
                  exact modOp_ops _ _ _ (by simpa using h)
                all_goals simp
              · exact .nil _

theorem cancel_micros (s : SConn) (sid ioid : Nat) : Micros Q s (cancelRequest s sid ioid) := by
  unfold cancelRequest
  split
  · exact .nil _
  · rename_i i hi
    split
    · exact .nil _
    · rename_i op h
      split
      · exact .nil _
      · split
        · rename_i hs
          refine .one (.op i op { op with state := .idle } _ false h
            (.cancel ⟨rfl, rfl, rfl⟩ hs rfl rfl rfl) ?_ ?_ ?_ ?_ ?_)
          · simp only [emitIf_ops]
            exact modOp_ops _ _ _ h
          · simp
          · simp
          · intro k ok hm
            exfalso; revert hm
            split <;> split <;> simp
          · simp
        · exact .nil _

theorem destroyRequest_micros (s : SConn) (sid ioid : Nat) : Micros Q s (destroyRequest s sid ioid) := by
  unfold destroyRequest
  split
  · exact .nil _
  · rename_i i hi
    refine Micros.trans ?_ (cleanup_micros _ _)
    refine .one ?_
    split
    · exact .silent rfl rfl rfl (by simp)
    · exact .silent rfl rfl rfl (by simp)

theorem createChan_micros (s : SConn) (cid : Nat) (a b c d : Bool) : Micros Q s (createChan s cid a b c d) :=
  .one (.quiet [.chanCreated s.chans.length] (by simp [Obs.about]) rfl rfl rfl (by simp [createChan]))

theorem destroyChan_micros (s : SConn) (sid : Nat) : Micros Q s (destroyChan s sid) := by
  unfold destroyChan
  split
  · exact .nil _
  · exact chanCleanup_micros _ _

theorem monInit_micros (s : SConn) (sid ioid : Nat) (ho : s.isOpen = true) : Micros Q s (monInit s sid ioid) := by
  unfold monInit
  split
  · exact .one (newOp_micro s _ ioid .mon 0 (by simp) ho)
  · exact disconnect_micros _

theorem monCtl_micros (s : SConn) (sid ioid : Nat) (st : Option Bool) (d : Bool) : Micros Q s (monCtl s sid ioid st d) := by
  unfold monCtl
  split
  · exact .nil _
  · rename_i i hi
    split
    · exact .nil _
    · rename_i op h
      split
      · exact .nil _
      · rename_i hd
        split
        · exact disconnect_micros _
        · rename_i hk
          simp only [not_or, ne_eq, Decidable.not_not] at hk
          split
          · exact disconnect_micros _
          · refine Micros.trans (t := monSet s i st) ?_ ?_
            · cases st with
              | none => exact .nil _
              | some b =>
                refine .one (.op i op { op with state := if b then .executing else .idle } [] false h
                  (.monRun ⟨rfl, rfl, rfl⟩ hk.1 ⟨hk.2, hd⟩ (by cases b <;> simp) rfl rfl) (modOp_ops _ _ _ h) ?_ ?_ ?_ ?_)
                all_goals simp [monSet]
            · simp only
              split
              · exact .one (.silent rfl rfl rfl (by simp))
              · exact .nil _

theorem monReply_micros (s : SConn) (i : Nat) (ok : Bool) : Micros Q s (monReply s i ok) := by
  unfold monReply
  split
  · exact .nil _
  · rename_i op h
    split
    · exact .nil _
    · rename_i hc
      simp only [not_or, ne_eq, Decidable.not_not] at hc
      cases ok
      · refine .one (.op i op { op with state := .dead } _ false h
          (.setupErr ⟨rfl, rfl, rfl⟩ (by simp [hc.1]) hc.2.1 rfl rfl rfl) ?_ ?_ (by simp) (by simp) (by simp))
        · simp only [emitIf_ops, emit_ops]; exact modOp_ops _ _ _ h
        · simp
      · refine .one (.op i op { op with state := .idle } _ false h
          (.setupOK ⟨rfl, rfl, rfl⟩ (by simp [hc.1]) hc.2.1 rfl rfl rfl) ?_ ?_ (by simp) (by simp) (by simp))
        · simp only [emitIf_ops, emit_ops]; exact modOp_ops _ _ _ h
        · simp

theorem monFinish_micros (s : SConn) (i : Nat) : Micros Q s (monFinish s i) := by
  unfold monFinish
  split
  · exact .nil _
  · rename_i op h
    split
    · exact .nil _
    · rename_i hc
      simp only [not_or, ne_eq, Decidable.not_not] at hc
      refine .one (.op i op { op with state := .dead } _ false h
          (.monEnd ⟨rfl, rfl, rfl⟩ hc.1 hc.2.1 rfl rfl rfl) ?_ ?_ (by simp) (by simp) (by simp))
      · simp only [emit_ops]; exact modOp_ops _ _ _ h
      · simp

theorem getField_micros (s : SConn) (sid ioid : Nat) (ho : s.isOpen = true) : Micros Q s (getField s sid ioid) := by
  unfold getField
  split
  · rename_i c _ _
    exact .one (.newInfo { chan := c, ioid := ioid, kind := .info, state := .executing } c rfl rfl rfl rfl rfl rfl
      (by simp [newOp]) (by simp [newOp]) ho)
  · exact .nil _

theorem infoReply_micros (s : SConn) (i k : Nat) (ok : Bool) (hh : s.handles[k]? = some i) (hq : Q k) :
    infoReply s i k ok = s ∨ Micro Q s (infoReply s i k ok) := by
  unfold infoReply
  split
  · exact .inl rfl
  · rename_i op h
    split
    · exact .inl rfl
    · rename_i hc
      simp only [not_or, ne_eq, Decidable.not_not, Bool.not_eq_true', Bool.not_eq_false] at hc
      refine .inr (.op i op { op with state := .dead } _ false h
          (.replyLast k ok ⟨rfl, rfl, rfl⟩ (by simp [hc.1]) hc.2.1 rfl rfl rfl) ?_ ?_ (by simp) ?_ (by simp))
      · simp only [forget_ops, emit_ops]; exact modOp_ops _ _ _ h
      · simp
      · intro k' ok' hm
        simp at hm
        rw [hm.1]; exact ⟨hh, hc.2.2, hq⟩

theorem setOnClose_micros (s : SConn) (i : Nat) : Micros Q s (setOnClose s i) := by
  unfold setOnClose
  split
  · exact .nil _
  · rename_i op h
    split
    · exact .nil _
    · rename_i hd
      refine .one (.op i op { op with onClose := true } _ false h (.setClose ⟨rfl, rfl, rfl⟩ rfl hd rfl rfl)
        ?_ ?_ (by simp) (by simp) (by simp))
      · simp only [emit_ops]; exact modOp_ops _ _ _ h
      · simp

theorem setOnCancel_micros (s : SConn) (k : Nat) : Micros Q s (setOnCancel s k) := by
  unfold setOnCancel
  split
  · exact .nil _
  · rename_i i hi
    cases h : s.ops[i]? with
    | none =>
      refine .one (.silent ?_ rfl rfl (by simp))
      show List.modify _ _ _ = _
      rw [List.modify_eq_self]
      exact List.getElem?_eq_none_iff.1 h
    | some op =>
      refine .one (.op i op _ [] false h ?_ (modOp_ops _ _ _ h) (by simp) (by simp) (by simp) (by simp))
      split
      · exact .edit ⟨rfl, rfl, rfl⟩ rfl rfl (fun h => .inr h)
      · rename_i hc
        simp only [not_or, Bool.not_eq_true', Bool.not_eq_false] at hc
        exact .edit ⟨rfl, rfl, rfl⟩ rfl rfl (fun _ => .inl hc.2)

theorem runPending_micros (s : SConn) : Micros Q s (runPending s) := by
  unfold runPending
  split
  · exact .nil _
  · rename_i i more _
    exact .cons (t := { s with pending := more }) (.silent rfl rfl rfl (by simp)) (cleanup_micros _ _)

/-- handles refer to operations which have been set up -/
def HandlesOK (s : SConn) : Prop :=
  ∀ (k i : Nat), s.handles[k]? = some i → ∃ op, s.ops[i]? = some op ∧ op.kind ≠ .mon ∧ op.state ≠ .creating

theorem Micro.handlesOK {s t : SConn} (m : Micro Q s t) (hs : HandlesOK s) : HandlesOK t := by
  intro k i hk
  cases m with
  | quiet obs hq ho hl hh hi => rw [ho]; exact hs k i (by rw [← hh]; exact hk)
  | new op c h1 h2 h3 h4 h5 ho hl hh hi =>
    obtain ⟨op', h, r⟩ := hs k i (by rw [← hh]; exact hk)
    refine ⟨op', ?_, r⟩
    rw [ho, List.getElem?_append_left (List.getElem?_eq_some_iff.1 h).1]
    exact h
  | newInfo op c h1 h2 h3 h4 h5 ho hl hh hi =>
    rw [hh] at hk
    by_cases hlt : k < s.handles.length
    · rw [List.getElem?_append_left hlt] at hk
      obtain ⟨op', h, r⟩ := hs k i hk
      refine ⟨op', ?_, r⟩
      rw [ho, List.getElem?_append_left (List.getElem?_eq_some_iff.1 h).1]
      exact h
    · rw [List.getElem?_append_right (by omega)] at hk
      have : s.ops.length = i := by
        cases e : k - s.handles.length with
        | zero => rw [e] at hk; simpa using hk
        | succ n => rw [e] at hk; simp at hk
      subst this
      refine ⟨op, ?_, by simp [h2], by simp [h1]⟩
      rw [ho]; simp
  | op j op op' obs b h st ho hl hh hr hi =>
    have key : ∀ i : Nat, (∃ o : SOp, s.ops[i]? = some o ∧ o.kind ≠ .mon ∧ o.state ≠ .creating) →
        ∃ o : SOp, t.ops[i]? = some o ∧ o.kind ≠ .mon ∧ o.state ≠ .creating := by
      rintro i ⟨o, h1, h2, h3⟩
      by_cases e : j = i
      · subst e
        rw [h] at h1; cases h1
        refine ⟨op', ?_, ?_, ?_⟩
        · rw [ho, List.getElem?_set]
          have := (List.getElem?_eq_some_iff.1 h).1
          simp [this]
        · cases st <;> simp_all [SOp.Same]
        · cases st <;> simp_all
      · refine ⟨o, ?_, h2, h3⟩
        rw [ho, List.getElem?_set_ne e]; exact h1
    rw [hh] at hk
    cases b
    · exact key i (hs k i hk)
    · simp only [if_true] at hk
      by_cases hlt : k < s.handles.length
      · rw [List.getElem?_append_left hlt] at hk
        exact key i (hs k i hk)
      · rw [List.getElem?_append_right (by omega)] at hk
        have : j = i := by
          cases e : k - s.handles.length with
          | zero => rw [e] at hk; simpa using hk
          | succ n => rw [e] at hk; simp at hk
        subst this
        refine ⟨op', ?_, ?_⟩
        · rw [ho, List.getElem?_set]
          have := (List.getElem?_eq_some_iff.1 h).1
          simp [this]
        · cases st with
          | exec c hsame hg h1 h2 h3 h4 =>
            rw [hsame.1, h2]
            refine ⟨?_, by simp⟩
            intro e; rw [e] at hg; cases hg

theorem Micros.handlesOK {s t : SConn} (m : Micros Q s t) : HandlesOK s → HandlesOK t := by
  induction m with
  | nil => exact id
  | cons h _ ih => exact fun hs => ih (h.handlesOK hs)

theorem useHandle_micro (s : SConn) (k : Nat) (v : Option Nat) (ok : Bool) (hs : HandlesOK s) (hq : Q k) :
    useHandle s k v ok = s ∨ Micro Q s (useHandle s k v ok) := by
  unfold useHandle
  split
  · exact .inl rfl
  · rename_i i hi
    split
    · exact .inl rfl
    · rename_i op h
      obtain ⟨op', h', hm, hc⟩ := hs k i hi
      rw [h] at h'; cases h'
      split
      · exact infoReply_micros _ _ _ _ hi hq
      · rename_i hk
        exact doReply_handle _ _ _ op _ _ h (by cases e : op.kind <;> simp_all [Kind.isGPR]) hc hi hq

theorem useHandle_micros (s : SConn) (k : Nat) (v : Option Nat) (ok : Bool) (hs : HandlesOK s) (hq : Q k) :
    Micros Q s (useHandle s k v ok) := by
  rcases useHandle_micro (Q := Q) s k v ok hs hq with h | h
  · rw [h]; exact .nil _
  · exact .one h

theorem step_micros (s : SConn) (e : Ev) (hs : HandlesOK s) (hq : ∀ k, Spec.uses e = some k → Q k) : Micros Q s (step s e) := by
  unfold step
  split
  · exact .nil _
  · cases e <;> simp only
    case gprInit k sid ioid sc =>
      split
      · rename_i h; exact gprInit_micros _ _ _ _ _ h.1 h.2
      · exact .nil _
    case gprExec k ioid sc ok =>
      split
      · exact gprExec_micros ..
      · exact .nil _
    case monInit =>
      split
      · rename_i h; exact monInit_micros _ _ _ h
      · exact .nil _
    case monCtl =>
      split
      · exact monCtl_micros ..
      · exact .nil _
    case getField =>
      split
      · rename_i h; exact getField_micros _ _ _ h
      · exact .nil _
    case cancel =>
      split
      · exact cancel_micros ..
      · exact .nil _
    case destroy =>
      split
      · exact destroyRequest_micros ..
      · exact .nil _
    case createChan =>
      split
      · exact createChan_micros ..
      · exact .nil _
    case destroyChan =>
      split
      · exact destroyChan_micros ..
      · exact .nil _
    case disconnect => exact disconnect_micros _
    case connect => exact gprConnect_micros ..
    case setupError => exact gprSetupError_micros ..
    case monReply => exact monReply_micros ..
    case monFinish => exact monFinish_micros ..
    case reply => exact useHandle_micros _ _ _ _ hs (hq _ rfl)
    case error => exact useHandle_micros _ _ _ _ hs (hq _ rfl)
    case setOnClose => exact setOnClose_micros ..
    case setOnCancel => exact setOnCancel_micros ..
    case closeChan => exact chanCleanup_micros ..
    case runPending => exact runPending_micros ..

theorem run_micros (es : List Ev) : ∀ s : SConn, HandlesOK s → Micros (fun _ => True) s (run s es) := by
  induction es with
  | nil => exact fun s _ => .nil s
  | cons e es ih =>
    intro s hs
    have h1 := step_micros (Q := fun _ => True) s e hs fun _ _ => trivial
    exact h1.trans (ih _ (h1.handlesOK hs))

end Pvxs.Server
