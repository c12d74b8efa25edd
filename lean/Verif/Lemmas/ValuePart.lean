import Verif.Lemmas.Value
namespace Pvxs
open Wire Spec

/-! ### shape of built tables -/

/-- a structure built without tripping the assertion has an entry for each node -/
theorem full_of_build (m : Member) (t : List FieldDesc) (h : build m = .ok t) : Full m := by
  intro hs
  have e := build_ok m t h
  obtain ⟨code, name, id, ch⟩ := m
  simp only at hs; subst hs
  simp only [build] at h
  rw [if_neg (by decide)] at h
  obtain ⟨r, _, h2⟩ := Res.bind_eq_ok h
  have hl : t ≠ [] ∧ ∀ d ds, t = d :: ds → t.length = d.size := by
    simp only [buildFinish] at h2
    split at h2
    · cases h2
    · split at h2
      · rename_i hsz
        cases h2
        refine ⟨by simp, ?_⟩
        intro d ds hd
        cases hd; exact hsz
      · cases h2
  rw [flat_struct _ rfl] at e
  have := hl.2 _ _ e
  rw [e, structRoot_size] at this
  simp only [List.length_cons, flatKids_length] at this
  show (lookOf _).length = countKids ch
  omega

/-- sub-trees are nested in each other or disjoint -/
theorem laminar_flat (m : Member) : Full m → ∀ (i : Nat) (d : FieldDesc), (flat m)[i]? = some d → ∀ (j : Nat) (e : FieldDesc), i ≤ j → j < i + d.size →
    (flat m)[j]? = some e → j + e.size ≤ i + d.size := by
  induction m using Member.ind with
  | h m ih =>
    intro hf i d hd j e hij hj he
    have hin := (nodeOK_flat m hf j e he).inside
    by_cases hs : m.code = .Struct
    · by_cases hi : i = 0
      · subst hi
        obtain ⟨r, rs, h1, h2, _⟩ := root_size m hf
        rw [h1] at hd
        simp at hd
        subst hd
        rw [flat_length] at hin
        omega
      · have hfs := flat_struct m hs
        have hil : i < (flat m).length := (List.getElem?_eq_some_iff.mp hd).1
        have hc : i - 1 < countKids m.children := by
          rw [flat_length, count_struct m hs] at hil; omega
        obtain ⟨o, c, hk, ho1, ho2⟩ := flatKids_node (off := 1) hc
        have hemb := embeds_kid hk (structRoot m)
        rw [← hfs] at hemb
        have hfc : Full c := (hf.entries hs).2.2 c hk.mem
        have hget : ∀ k, k < count c → ∀ x, (flat m)[o + k]? = some x → ∃ y, (flat c)[k]? = some y ∧ y.size = x.size := by
          intro k hk' x hx
          have hl : k < (flat c).length := by rw [flat_length]; exact hk'
          obtain ⟨n, hn⟩ := hemb.get k _ (List.getElem?_eq_getElem hl)
          rw [hn] at hx
          refine ⟨_, List.getElem?_eq_getElem hl, ?_⟩
          cases hx; rfl
        obtain ⟨d', hd', hds⟩ := hget (i - o) (by omega) d (by rw [show o + (i - o) = i by omega]; exact hd)
        have hdin := (nodeOK_flat c hfc _ _ hd').inside
        rw [flat_length] at hdin
        obtain ⟨e', he', hes⟩ := hget (j - o) (by omega) e (by rw [show o + (j - o) = j by omega]; exact he)
        have := ih c hk.mem hfc _ _ hd' (j - o) e' (by omega) (by omega) he'
        omega
    · obtain ⟨x, hx, _⟩ := flat_other m hs
      rw [hx] at hd he hin
      cases i with
      | succ i => simp at hd
      | zero =>
        cases j with
        | succ j => simp at he
        | zero =>
          rw [hd] at he
          cases he; omega

/-! ### the fields selected for a partial update -/

theorem size_pos (d : FieldDesc) : 0 < d.size := by simp only [FieldDesc.size]; omega

/-- `bs`: increasing, each selected, not overlapping, and together covering every selected node from `lo` on -/
structure Greedy (p : Nat → Bool) (sz : Nat → Nat) (lo hi : Nat) (bs : List Nat) : Prop where
  mem : ∀ b ∈ bs, lo ≤ b ∧ b < hi ∧ p b = true
  apart : bs.Pairwise fun a b => a + sz a ≤ b
  cover : ∀ j, lo ≤ j → j < hi → p j = true → ∃ b ∈ bs, b ≤ j ∧ j < b + sz b

theorem greedy_select (mask : Nat → Bool) (p : Nat → Bool) (sz : Nat → Nat) :
    ∀ (t : List FieldDesc) (cs : List Cell) (i skip : Nat), t.length = cs.length →
      (∀ k d c, t[k]? = some d → cs[k]? = some c → sz (i + k) = d.size ∧ p (i + k) = (c.valid && mask (i + k))) →
      Greedy p sz (i + skip) (i + t.length) (selectBits mask i skip t cs)
  | [], [], i, skip, _, _ => ⟨by simp [selectBits], by simp [selectBits], by intro j h1 h2; simp at h2; omega⟩
  | [], _ :: _, _, _, h, _ => by simp at h
  | _ :: _, [], _, _, h, _ => by simp at h
  | d :: t, c :: cs, i, skip, hl, h => by
    have hl' : t.length = cs.length := by simpa using hl
    have h' : ∀ k d c, t[k]? = some d → cs[k]? = some c →
        sz (i + 1 + k) = d.size ∧ p (i + 1 + k) = (c.valid && mask (i + 1 + k)) := by
      intro k d' c' h1 h2
      have := h (k+1) d' c' (by simpa using h1) (by simpa using h2)
      rw [show i + 1 + k = i + (k + 1) by omega]; exact this
    have h0 := h 0 d c rfl rfl
    simp only [Nat.add_zero] at h0
    have he : i + (d :: t).length = i + 1 + t.length := by simp; omega
    rw [he]
    cases skip with
    | succ k =>
      have g := greedy_select mask p sz t cs (i+1) k hl' h'
      simp only [selectBits]
      rw [show i + (k + 1) = i + 1 + k by omega]
      exact g
    | zero =>
      simp only [selectBits]
      have hd := size_pos d
      by_cases hp : (c.valid && mask i) = true
      · rw [if_pos hp]
        have g := greedy_select mask p sz t cs (i+1) (d.size - 1) hl' h'
        refine ⟨?_, ?_, ?_⟩
        · intro b hb
          rcases List.mem_cons.mp hb with rfl | hb
          · exact ⟨by omega, by omega, by rw [h0.2]; exact hp⟩
          · have := g.mem b hb
            exact ⟨by omega, this.2⟩
        · refine List.Pairwise.cons ?_ g.apart
          intro b hb
          have := (g.mem b hb).1
          rw [h0.1]; omega
        · intro j h1 h2 h3
          by_cases hj : j < i + d.size
          · exact ⟨i, by simp, by omega, by rw [h0.1]; exact hj⟩
          · obtain ⟨b, hb, h4⟩ := g.cover j (by omega) h2 h3
            exact ⟨b, by simp [hb], h4⟩
      · rw [if_neg hp]
        have g := greedy_select mask p sz t cs (i+1) 0 hl' h'
        refine ⟨fun b hb => ?_, g.apart, ?_⟩
        · have := g.mem b hb
          exact ⟨by omega, this.2⟩
        · intro j h1 h2 h3
          have : j ≠ i := by
            rintro rfl
            rw [h0.2] at h3; exact hp h3
          exact g.cover j (by omega) h2 h3

/-! ### storing the received fields -/

theorem splice_get (ws new : List Cell) (b i : Nat) (h : b + new.length ≤ ws.length) :
    (splice ws b new)[i]? = if b ≤ i ∧ i < b + new.length then new[i - b]? else ws[i]? := by
  unfold splice
  have hb : (ws.take b).length = b := by simp; omega
  by_cases h1 : i < b
  · rw [if_neg (by omega), List.append_assoc, List.getElem?_append_left (by omega), List.getElem?_take, if_pos h1]
  · by_cases h2 : i < b + new.length
    · rw [if_pos (by omega), List.append_assoc, List.getElem?_append_right (by omega), hb,
        List.getElem?_append_left (by omega)]
    · rw [if_neg (by omega), List.getElem?_append_right (by simp; omega), List.getElem?_drop]
      congr 1
      simp; omega

theorem splice_length (ws new : List Cell) (b : Nat) (h : b + new.length ≤ ws.length) :
    (splice ws b new).length = ws.length := by
  simp [splice]; omega

theorem keepStructs_get : ∀ (t : List FieldDesc) (os ns : List Cell) (k : Nat) (d : FieldDesc) (o n : Cell),
    t[k]? = some d → os[k]? = some o → ns[k]? = some n →
    (keepStructs t os ns)[k]? = some (if d.code = .Struct then o else n)
  | [], _, _, _, _, _, _, h, _, _ => by simp at h
  | _ :: _, [], _, _, _, _, _, _, h, _ => by simp at h
  | _ :: _, _ :: _, [], _, _, _, _, _, _, h => by simp at h
  | d' :: t, o' :: os, n' :: ns, k, d, o, n, h1, h2, h3 => by
    cases k with
    | zero => simp only [List.getElem?_cons_zero, Option.some.injEq] at h1 h2 h3; subst h1 h2 h3; simp [keepStructs]
    | succ k =>
      simp only [List.getElem?_cons_succ] at h1 h2 h3
      simp only [keepStructs, List.getElem?_cons_succ]
      exact keepStructs_get t os ns k d o n h1 h2 h3

theorem keepStructs_length : ∀ (t : List FieldDesc) (os ns : List Cell), t.length ≤ os.length → t.length ≤ ns.length →
    (keepStructs t os ns).length = t.length
  | [], _, _, _, _ => by simp [keepStructs]
  | _ :: _, [], _, h, _ => by simp at h
  | _ :: _, _ :: _, [], _, h => by simp at h
  | d' :: t, o' :: os, n' :: ns, h1, h2 => by
    simp only [keepStructs, List.length_cons]
    rw [keepStructs_length t os ns (by simpa using h1) (by simpa using h2)]

theorem markFirst_length (cs : List Cell) : (markFirst cs).length = cs.length := by
  cases cs with
  | nil => rfl
  | cons c cs => cases c; rfl

theorem markFirst_get (cs : List Cell) (k : Nat) :
    (markFirst cs)[k]? = (cs[k]?).map fun c => .mk (c.valid || k == 0) c.data := by
  cases cs with
  | nil => rfl
  | cons c cs =>
    cases c
    cases k with
    | zero => simp [markFirst, Cell.data]
    | succ k =>
      simp only [markFirst, List.getElem?_cons_succ]
      cases h : cs[k]? with
      | none => rfl
      | some c => cases c; simp [Cell.valid, Cell.data]

theorem receivedCells_get (mark : Bool) : ∀ (t : List FieldDesc) (cs : List Cell) (k : Nat) (d : FieldDesc) (c : Cell),
    t[k]? = some d → cs[k]? = some c →
    (receivedCells mark t cs)[k]? = some (.mk (mark && d.code != .Struct) (receivedDatum d c.data))
  | [], _, _, _, _, h, _ => by simp at h
  | _ :: _, [], _, _, _, _, h => by simp at h
  | d' :: t, .mk b x :: cs, k, d, c, h1, h2 => by
    cases k with
    | zero => simp only [List.getElem?_cons_zero, Option.some.injEq] at h1 h2; subst h1 h2; simp [receivedCells, Cell.data]
    | succ k =>
      simp only [List.getElem?_cons_succ] at h1 h2
      simp only [receivedCells, List.getElem?_cons_succ]
      exact receivedCells_get mark t cs k d c h1 h2

theorem receivedCells_length (mark : Bool) : ∀ (t : List FieldDesc) (cs : List Cell), t.length = cs.length →
    (receivedCells mark t cs).length = t.length
  | [], _, _ => by simp [receivedCells]
  | _ :: _, [], h => by simp at h
  | d :: t, .mk b x :: cs, h => by
    simp only [receivedCells, List.length_cons]
    rw [receivedCells_length mark t cs (by simpa using h)]

theorem cellsOK_length : ∀ (t : List FieldDesc) (cs : List Cell), CellsOK t cs → t.length = cs.length
  | [], [], _ => rfl
  | [], .mk _ _ :: _, h => by simp [CellsOK] at h
  | _ :: _, [], h => by simp [CellsOK] at h
  | d :: t, .mk b x :: cs, h => by
    simp only [CellsOK] at h
    simp only [List.length_cons]
    rw [cellsOK_length t cs h.2]

theorem cellsOK_drop : ∀ (b : Nat) (t : List FieldDesc) (cs : List Cell), CellsOK t cs → CellsOK (t.drop b) (cs.drop b)
  | 0, _, _, h => h
  | _+1, [], [], h => h
  | _+1, [], .mk _ _ :: _, h => by simp [CellsOK] at h
  | _+1, _ :: _, [], h => by simp [CellsOK] at h
  | b+1, d :: t, .mk _ x :: cs, h => by
    simp only [CellsOK] at h
    simpa using cellsOK_drop b t cs h.2

theorem cellsOK_take : ∀ (b : Nat) (t : List FieldDesc) (cs : List Cell), CellsOK t cs → CellsOK (t.take b) (cs.take b)
  | 0, _, _, _ => by simp [CellsOK]
  | _+1, [], [], h => h
  | _+1, [], .mk _ _ :: _, h => by simp [CellsOK] at h
  | _+1, _ :: _, [], h => by simp [CellsOK] at h
  | b+1, d :: t, .mk _ x :: cs, h => by
    simp only [CellsOK] at h
    simp only [List.take_succ_cons, CellsOK]
    exact ⟨h.1, cellsOK_take b t cs h.2⟩

theorem nestingCells_drop (b : Nat) : ∀ cs : List Cell, nestingCells (cs.drop b) ≤ nestingCells cs := by
  induction b with
  | zero => intro cs; simp
  | succ b ih =>
    intro cs
    cases cs with
    | nil => simp
    | cons c cs =>
      cases c
      have := ih cs
      simp only [List.drop_succ_cons, nestingCells]
      omega

theorem nestingCells_take (b : Nat) : ∀ cs : List Cell, nestingCells (cs.take b) ≤ nestingCells cs := by
  induction b with
  | zero => intro cs; simp [nestingCells]
  | succ b ih =>
    intro cs
    cases cs with
    | nil => simp
    | cons c cs =>
      cases c
      have := ih cs
      simp only [List.take_succ_cons, nestingCells]
      omega

/-- the receiver's new cells for the sub-tree at `b` -/
def newCells (t : List FieldDesc) (cs ws : List Cell) (b : Nat) : List Cell :=
  markFirst (keepStructs (nodesOf (t.drop b)) (ws.drop b)
    (receivedCells true (nodesOf (t.drop b)) ((cs.drop b).take (nodesOf (t.drop b)).length)))

def applyBits (t : List FieldDesc) (cs : List Cell) : List Cell → List Nat → List Cell
  | ws, [] => ws
  | ws, b :: bs => applyBits t cs (splice ws b (newCells t cs ws b)) bs

/-- sizes: every node's sub-tree ends inside the table -/
def SizesOK (t : List FieldDesc) : Prop := ∀ i d, t[i]? = some d → i + d.size ≤ t.length

theorem nodesOf_drop {t : List FieldDesc} {b : Nat} {d : FieldDesc} (h : t[b]? = some d) :
    nodesOf (t.drop b) = (t.drop b).take d.size := by
  have hl := (List.getElem?_eq_some_iff.mp h).1
  rw [List.drop_eq_getElem_cons hl]
  rw [List.getElem?_eq_getElem hl] at h
  cases h
  rfl

theorem nodesOf_drop_length {t : List FieldDesc} {b : Nat} {d : FieldDesc} (ht : SizesOK t) (h : t[b]? = some d) :
    (nodesOf (t.drop b)).length = d.size := by
  rw [nodesOf_drop h]
  have := ht b d h
  simp; omega

theorem newCells_length {t : List FieldDesc} {cs ws : List Cell} {b : Nat} {d : FieldDesc} (ht : SizesOK t)
    (hc : t.length = cs.length) (hw : t.length = ws.length) (h : t[b]? = some d) :
    (newCells t cs ws b).length = d.size := by
  have hl := nodesOf_drop_length ht h
  have hs := ht b d h
  unfold newCells
  rw [markFirst_length, keepStructs_length, hl]
  · simp; omega
  · rw [receivedCells_length]
    · exact Nat.le_refl _
    · simp; omega

theorem newCells_get {t : List FieldDesc} {cs ws : List Cell} {b k : Nat} {d e : FieldDesc} {c w : Cell} (ht : SizesOK t)
    (h : t[b]? = some d) (hk : k < d.size)
    (he : t[b + k]? = some e) (hcs : cs[b + k]? = some c) (hws : ws[b + k]? = some w) :
    (newCells t cs ws b)[k]? = some (if e.code = .Struct then .mk (w.valid || k == 0) w.data
      else .mk true (receivedDatum e c.data)) := by
  have hl := nodesOf_drop_length ht h
  have h1 : (nodesOf (t.drop b))[k]? = some e := by
    rw [nodesOf_drop h, List.getElem?_take, if_pos hk, List.getElem?_drop]; exact he
  have h2 : (ws.drop b)[k]? = some w := by rw [List.getElem?_drop]; exact hws
  have h3 : ((cs.drop b).take (nodesOf (t.drop b)).length)[k]? = some c := by
    rw [hl, List.getElem?_take, if_pos hk, List.getElem?_drop]; exact hcs
  have h4 := receivedCells_get true _ _ k e c h1 h3
  unfold newCells
  rw [markFirst_get, keepStructs_get _ _ _ k e w _ h1 h2 h4]
  by_cases hs : e.code = .Struct
  · simp [hs]
  · have hb : (e.code != TypeCode.Struct) = true := by simp [bne, beq_eq_false_iff_ne.mpr hs]
    simp [hs, Cell.data, Cell.valid]

/-- what the receiver holds afterwards, node by node -/
theorem applyBits_get {t : List FieldDesc} {cs : List Cell} (ht : SizesOK t) (hc : t.length = cs.length) (sz : Nat → Nat)
    (hsz : ∀ i d, t[i]? = some d → sz i = d.size) (bs : List Nat) :
    ∀ (ws : List Cell), t.length = ws.length → (∀ b ∈ bs, b < t.length) → bs.Pairwise (fun a b => a + sz a ≤ b) →
    (applyBits t cs ws bs).length = t.length ∧
    ∀ i d c w, t[i]? = some d → cs[i]? = some c → ws[i]? = some w →
      ((∀ b ∈ bs, ¬ (b ≤ i ∧ i < b + sz b)) → (applyBits t cs ws bs)[i]? = some w) ∧
      (∀ b ∈ bs, b ≤ i → i < b + sz b → (applyBits t cs ws bs)[i]? =
        some (if d.code = .Struct then .mk (w.valid || i == b) w.data else .mk true (receivedDatum d c.data))) := by
  induction bs with
  | nil => intro ws hw _ _; exact ⟨hw.symm, fun i d c w _ _ hi => ⟨fun _ => hi, fun b hb => by simp at hb⟩⟩
  | cons a bs ih =>
    intro ws hw hlt hpw
    have hal := hlt a (by simp)
    have hda : t[a]? = some t[a] := List.getElem?_eq_getElem hal
    have hnl := newCells_length ht hc hw hda
    have hsa := ht a _ hda
    have hza := hsz a _ hda
    have hsp : a + (newCells t cs ws a).length ≤ ws.length := by omega
    have hpc := List.pairwise_cons.mp hpw
    obtain ⟨h1, h2⟩ := ih (splice ws a (newCells t cs ws a)) (by rw [splice_length _ _ _ hsp]; exact hw)
      (fun b hb => hlt b (by simp [hb])) hpc.2
    refine ⟨h1, ?_⟩
    intro i d c w hd hcc hww
    have hget := splice_get ws (newCells t cs ws a) a i hsp
    by_cases hi : a ≤ i ∧ i < a + (newCells t cs ws a).length
    · rw [if_pos hi] at hget
      rw [hnl] at hi
      rw [newCells_get ht hda (k := i - a) (by omega) (by rw [show a + (i - a) = i by omega]; exact hd)
        (by rw [show a + (i - a) = i by omega]; exact hcc) (by rw [show a + (i - a) = i by omega]; exact hww)] at hget
      have h3 := h2 i d c _ hd hcc hget
      have hout : ∀ b ∈ bs, ¬ (b ≤ i ∧ i < b + sz b) := by
        intro b hb
        have := hpc.1 b hb
        omega
      refine ⟨fun hn => absurd ⟨hi.1, by omega⟩ (hn a (by simp)), ?_⟩
      intro b hb hb1 hb2
      rcases List.mem_cons.mp hb with rfl | hb
      · simp only [applyBits]
        rw [h3.1 hout]
        have : (i - b == 0) = (i == b) := by
          rw [Bool.eq_iff_iff]; simp; omega
        rw [this]
      · exact absurd ⟨hb1, hb2⟩ (hout b hb)
    · rw [if_neg hi, hww] at hget
      have h3 := h2 i d c w hd hcc hget
      rw [hnl] at hi
      refine ⟨fun hn => h3.1 fun b hb => hn b (by simp [hb]), ?_⟩
      intro b hb hb1 hb2
      rcases List.mem_cons.mp hb with rfl | hb
      · exact absurd ⟨hb1, by omega⟩ hi
      · exact h3.2 b hb hb1 hb2

/-! ### the wire form of the selected fields -/

theorem next_bit {t : List FieldDesc} {M : BitMask} (wf : M.WF) (cl : M.Clean) (hM : M.size = t.length) (sz : Nat → Nat)
    (hz : ∀ i, i < t.length → 0 < sz i) (a : Nat) (bs : List Nat)
    (hp : (a :: bs).Pairwise fun a b => a + sz a ≤ b) (hlt : ∀ b ∈ a :: bs, b < t.length)
    (hb : ∀ j, a ≤ j → M.bit j = decide (j ∈ a :: bs)) : M.findSet (a + sz a) = some (bs.headD t.length) := by
  obtain ⟨r, h1, h2, h3, h4, h5, h6⟩ := BitMask.findSet_clean M wf cl (a + sz a)
  rw [h1]
  congr 1
  have ha := hz a (hlt a (by simp))
  have hpc := List.pairwise_cons.mp hp
  cases bs with
  | nil =>
    simp only [List.headD_nil]
    rcases h5 with h5 | h5
    · omega
    · by_cases h : M.size ≤ a + sz a
      · have := h6 h; omega
      · have h7 := h3 (by omega)
        rw [hb r (by omega)] at h5
        simp at h5
        omega
  | cons b bs =>
    simp only [List.headD_cons]
    have hab := hpc.1 b (by simp)
    have hbl := hlt b (by simp)
    have h7 := h3 (by omega)
    have h8 : ¬ b < r := by
      intro h
      have := h4 b hab h
      rw [hb b (by omega)] at this
      simp at this
    rcases h5 with h5 | h5
    · omega
    · rw [hb r (by omega)] at h5
      simp only [List.mem_cons, decide_eq_true_eq] at h5
      rcases h5 with h5 | h5 | h5
      · omega
      · exact h5
      · have := (List.pairwise_cons.mp hpc.2).1 r h5
        omega

theorem nestingCells_part (cs : List Cell) (b k : Nat) : nestingCells ((cs.drop b).take k) ≤ nestingCells cs :=
  Nat.le_trans (nestingCells_take _ _) (nestingCells_drop _ _)

theorem codec_bits (be : Bool) {t : List FieldDesc} {cs : List Cell} (ht : SizesOK t) (hok : CellsOK t cs) {M : BitMask}
    (wf : M.WF) (cl : M.Clean) (hM : M.size = t.length) (sz : Nat → Nat) (hsz : ∀ i d, t[i]? = some d → sz i = d.size)
    (bs : List Nat) : bs.Pairwise (fun a b => a + sz a ≤ b) → (∀ b ∈ bs, b < t.length) →
    ∃ bytes, Emits be (putBits t cs bs) bytes ∧ ∀ f c n ws, nestingCells cs ≤ f → t.length = ws.length → bs.length < n →
      (∀ j, bs.headD t.length ≤ j → M.bit j = decide (j ∈ bs)) →
      Parses be (getBits (getVal f) t M n c ws (bs.headD t.length)) bytes (applyBits t cs ws bs, c) := by
  induction bs with
  | nil =>
    intro _ _
    refine ⟨[], emits_congr (fun o => by simp only [putBits]) (Emits.id be), ?_⟩
    intro f c n ws _ _ hn _
    cases n with
    | zero => simp at hn
    | succ n =>
      simp only [List.headD_nil, getBits, List.drop_length, applyBits]
      exact Parses.pure be _
  | cons a bs ih =>
    intro hp hlt
    have hpc := List.pairwise_cons.mp hp
    obtain ⟨bytes, e, p⟩ := ih hpc.2 (fun b hb => hlt b (by simp [hb]))
    have hal := hlt a (by simp)
    have hda : t[a]? = some t[a] := List.getElem?_eq_getElem hal
    have hl := nodesOf_drop_length ht hda
    have hcl := cellsOK_length t cs hok
    have hsub : CellsOK (nodesOf (t.drop a)) ((cs.drop a).take (nodesOf (t.drop a)).length) := by
      rw [hl, nodesOf_drop hda]
      exact cellsOK_take _ _ _ (cellsOK_drop _ _ _ hok)
    have hns := nestingCells_part cs a (nodesOf (t.drop a)).length
    obtain ⟨b1, e1, p1⟩ := codec_cells be (nestingCells cs) (fun w hw hv => codec_val be _ w hw hv) true _ _ hsub hns
    refine ⟨b1 ++ bytes, emits_congr (fun o => by simp only [putBits]) (Emits.comp e1 e), ?_⟩
    intro f c n ws hf hw hn hb
    have hnext := next_bit wf cl hM sz (fun i hi => by
      rw [hsz i _ (List.getElem?_eq_getElem hi)]; exact size_pos _) a bs hp hlt (by simpa using hb)
    cases n with
    | zero => simp at hn
    | succ n =>
      simp only [List.headD_cons, getBits]
      rw [List.drop_eq_getElem_cons hal]
      simp only
      rw [← List.drop_eq_getElem_cons hal, ← hsz a _ hda, hnext]
      simp only
      have p2 : Parses be (getSub (getVal f) c (t.drop a) (ws.drop a)) b1 (newCells t cs ws a, c) := by
        unfold getSub
        exact Parses.map (p1 f c (Nat.le_trans hns hf)) _
      refine Parses.bind p2 ?_
      simp only [applyBits]
      have hnl := newCells_length ht hcl hw hda
      have hsa := ht a _ hda
      refine p f c n _ hf ?_ (by simpa using hn) ?_
      · rw [splice_length]
        · exact hw
        · omega
      · intro j hj
        have h1 : a < j := by
          have hz := hsz a _ hda
          have h0 := size_pos t[a]
          cases bs with
          | nil => simp only [List.headD_nil] at hj; omega
          | cons b bs =>
            simp only [List.headD_cons] at hj
            have := hpc.1 b (by simp)
            omega
        rw [hb j (by simp; omega)]
        have : j ≠ a := by omega
        simp [this]

theorem pairwise_lt_apart {sz : Nat → Nat} {bs : List Nat} (h : bs.Pairwise fun a b => a + sz a ≤ b) :
    ∀ a b, a ∈ bs → b ∈ bs → a < b → a + sz a ≤ b := by
  induction bs with
  | nil => intro a b ha; simp at ha
  | cons x bs ih =>
    have hc := List.pairwise_cons.mp h
    intro a b ha hb hlt
    rcases List.mem_cons.mp ha with h1 | h1
    · rcases List.mem_cons.mp hb with h2 | h2
      · omega
      · rw [h1]; exact hc.1 b h2
    · rcases List.mem_cons.mp hb with h2 | h2
      · have := hc.1 a h1; omega
      · exact ih hc.2 a b h1 h2 hlt

/-- the test made for each node by the sender -/
def pickedB (mask : Option BitMask) (cs : List Cell) (i : Nat) : Bool :=
  ((cs[i]?).any Cell.valid) && maskAllows mask i

theorem pickedB_iff (mask : Option BitMask) (cs : List Cell) (n i : Nat) (hn : cs.length = n)
    (hm : ∀ m, mask = some m → m.size = n) : pickedB mask cs i = true ↔ Picked mask cs i := by
  unfold pickedB Picked
  rw [Bool.and_eq_true, Option.any_eq_true]
  constructor
  · rintro ⟨⟨c, h1, h2⟩, h3⟩
    refine ⟨⟨c, h1, h2⟩, ?_⟩
    rintro m rfl
    simp only [maskAllows, beq_iff_eq] at h3
    refine ⟨?_, h3⟩
    rw [hm m rfl, ← hn]
    exact (List.getElem?_eq_some_iff.mp h1).1
  · rintro ⟨⟨c, h1, h2⟩, h3⟩
    refine ⟨⟨c, h1, h2⟩, ?_⟩
    cases mask with
    | none => rfl
    | some m => simp only [maskAllows, beq_iff_eq]; exact (h3 m rfl).2

theorem bit_resize (M : BitMask) (n i : Nat) (h : n < 2 ^ 16) :
    (M.resize n).bit i = if i / 64 < (n + 63) / 64 then M.bit i else false := by
  have hs := BitMask.storeWords_eq n (by omega)
  simp only [BitMask.bit, BitMask.resize, BitMask.vresize_getD, hs]
  split <;> simp

theorem putValid_eq (mask : Option BitMask) (r : FieldDesc) (rs t : List FieldDesc) (cs : List Cell) (M : BitMask) (o : Out)
    (hr : t = r :: rs) (hs : r.code = .Struct) (hz : r.size = t.length) (hm : ∀ k, mask = some k → k.size = t.length)
    (hM : (BitMask.sized t.length).setAll (selectBits (maskAllows mask) 0 0 t cs) = some M) :
    putValid mask (.mk t cs) o = putBits t cs (selectBits (maskAllows mask) 0 0 t cs) (M.toWire o) := by
  subst hr
  unfold putValid
  simp only
  rw [if_neg, hz, hM]
  rintro (h | h)
  · exact h hs
  · cases mask with
    | none => simp at h
    | some k => simp [hm k rfl, hz] at h

/-- what a partial update does, in terms of the selected fields -/
theorem codec_valid (be : Bool) (m : Member) (t : List FieldDesc) (cs : List Cell) (mask : Option BitMask)
    (hb : build m = .ok t) (hs : m.code = .Struct) (ht : t.length < 2 ^ 16) (hok : CellsOK t cs)
    (hm : ∀ k, mask = some k → k.size = t.length) :
    ∃ bytes, Emits be (putValid mask (.mk t cs)) bytes ∧ ∀ f c ws, nestingCells cs ≤ f → ws.length = t.length →
      ∃ ws', Parses be (getValid f c (.mk t ws)) bytes (.mk t ws', c) ∧ ws'.length = t.length ∧
        ∀ i d x y, t[i]? = some d → cs[i]? = some x → ws[i]? = some y →
          (¬ Transferred mask t cs i → ws'[i]? = some y) ∧
          (Transferred mask t cs i → d.code ≠ .Struct → ws'[i]? = some (.mk true (receivedDatum d x.data))) ∧
          (Transferred mask t cs i → d.code = .Struct →
            ∃ b, ws'[i]? = some (.mk b y.data) ∧ (b = true ↔ y.valid = true ∨ Outermost mask t cs i)) := by
  have hf := full_of_build m t hb
  have hflat := build_ok m t hb
  have hcl := cellsOK_length t cs hok
  have hsz : SizesOK t := by
    intro i d hd
    rw [hflat] at hd ⊢
    exact (nodeOK_flat m hf i d hd).inside
  have hlam := laminar_flat m hf
  rw [← hflat] at hlam
  obtain ⟨r, rs, hr1, hr2, _⟩ := root_size m hf
  obtain ⟨r', rs', hr3, hr4, _⟩ := flat_head m
  rw [hr1] at hr3
  cases hr3
  rw [← hflat] at hr1
  have hrsz : r.size = t.length := by rw [hr2, ← flat_length, ← hflat]
  let mk : Nat → Bool := maskAllows mask
  let sz : Nat → Nat := fun i => ((t[i]?).map FieldDesc.size).getD 1
  have hsz' : ∀ i d, t[i]? = some d → sz i = d.size := by intro i d hd; simp only [sz, hd]; rfl
  have g : Greedy (pickedB mask cs) sz 0 t.length (selectBits mk 0 0 t cs) := by
    have := greedy_select mk (pickedB mask cs) sz t cs 0 0 hcl (by
      intro k d c h1 h2
      simp only [Nat.zero_add]
      refine ⟨hsz' k d h1, ?_⟩
      simp only [pickedB, h2, mk]; rfl)
    simpa using this
  have hp : ∀ i, pickedB mask cs i = true ↔ Picked mask cs i := fun i =>
    pickedB_iff mask cs t.length i hcl.symm hm
  have hpl : ∀ i, Picked mask cs i → i < t.length := by
    rintro i ⟨⟨c, h, _⟩, _⟩
    rw [hcl]
    exact (List.getElem?_eq_some_iff.mp h).1
  have hwithin : ∀ b i, b < t.length → (Within t b i ↔ b ≤ i ∧ i < b + sz b) := by
    intro b i hb'
    rw [hsz' b _ (List.getElem?_eq_getElem hb')]
    constructor
    · rintro ⟨d, h1, h2⟩
      rw [List.getElem?_eq_getElem hb'] at h1
      cases h1; exact h2
    · intro h; exact ⟨_, List.getElem?_eq_getElem hb', h⟩
  have hlam' : ∀ a b, a < t.length → b < t.length → a ≤ b → b < a + sz a → b + sz b ≤ a + sz a := by
    intro a b ha hb' h1 h2
    have ea := List.getElem?_eq_getElem ha
    have eb := List.getElem?_eq_getElem hb'
    rw [hsz' a _ ea] at h2 ⊢
    rw [hsz' b _ eb]
    exact hlam a _ ea b _ h1 h2 eb
  -- the mask which is sent
  obtain ⟨w1, w2, w3, w4⟩ := BitMask.sized_wf t.length ht
  obtain ⟨M, hM, M2, M3, M4⟩ := BitMask.setAll_spec (selectBits mk 0 0 t cs) (BitMask.sized t.length) (by
    intro b hb'
    have := (g.mem b hb').2.1
    rw [w3]; omega)
  have hMw : M.words.length < 2 ^ 29 := by rw [M3, w3]; omega
  have hRbit : ∀ j, (M.trimmed.resize t.length).bit j = decide (j ∈ selectBits mk 0 0 t cs) := by
    intro j
    rw [bit_resize _ _ _ ht, BitMask.trimmed_bit, M4, w4, Bool.or_false]
    split
    · rfl
    · rename_i hj
      symm
      rw [decide_eq_false_iff_not]
      intro hmem
      have := (g.mem j hmem).2.1
      omega
  have hRsize : (M.trimmed.resize t.length).size = t.length := by
    simp only [BitMask.resize]; exact Nat.mod_eq_of_lt ht
  have hRwf : (M.trimmed.resize t.length).WF := by
    simp only [BitMask.WF, hRsize]
    simp only [BitMask.resize, BitMask.vresize_length, BitMask.storeWords_eq t.length (by omega)]
    omega
  have hRcl : (M.trimmed.resize t.length).Clean := by
    intro i hi
    rw [hRsize] at hi
    rw [hRbit, decide_eq_false_iff_not]
    intro hmem
    have := (g.mem i hmem).2.1
    omega
  obtain ⟨bytes, e, p⟩ := codec_bits be hsz hok hRwf hRcl hRsize sz hsz' (selectBits mk 0 0 t cs) g.apart
    (fun b hb' => (g.mem b hb').2.1)
  refine ⟨_, emits_congr (fun o => ?_) (Emits.comp (BitMask.emits_toWire be M hMw) e), ?_⟩
  · exact putValid_eq mask r rs t cs M o hr1 (by rw [hr4]; exact hs) hrsz hm hM
  intro f c ws hfu hw
  have hlast : (selectBits mk 0 0 t cs).length < t.length + 1 := by
    have hnd : (selectBits mk 0 0 t cs).Nodup := by
      refine List.Pairwise.imp_of_mem ?_ g.apart
      intro a b ha hb' h1 h2
      subst h2
      have h3 := hsz' a _ (List.getElem?_eq_getElem (g.mem a ha).2.1)
      have := size_pos (t[a]'(g.mem a ha).2.1)
      omega
    have hsub : selectBits mk 0 0 t cs ⊆ List.range t.length := by
      intro b hb'
      simp only [List.mem_range]
      exact (g.mem b hb').2.1
    have h2 := hnd.length_le_of_subset hsub
    simp at h2; omega
  have hstart : (M.trimmed.resize t.length).findSet 0 = some ((selectBits mk 0 0 t cs).headD t.length) := by
    obtain ⟨q, h1, h2, h3, h4, h5, h6⟩ := BitMask.findSet_clean _ hRwf hRcl 0
    rw [h1]
    congr 1
    rw [hRsize] at h2 h5
    cases hl : selectBits mk 0 0 t cs with
    | nil =>
      simp only [List.headD_nil]
      rcases h5 with h5 | h5
      · exact h5
      · rw [hRbit, hl] at h5; simp at h5
    | cons a as =>
      simp only [List.headD_cons]
      have ha := g.mem a (by rw [hl]; simp)
      have hqa : ¬ a < q := by
        intro h
        have := h4 a (by omega) h
        rw [hRbit, hl] at this
        simp at this
      rcases h5 with h5 | h5
      · omega
      · rw [hRbit, hl] at h5
        have hap := g.apart
        rw [hl] at hap
        simp only [List.mem_cons, decide_eq_true_eq] at h5
        rcases h5 with h5 | h5
        · exact h5
        · have := (List.pairwise_cons.mp hap).1 q h5
          omega
  refine ⟨applyBits t cs ws (selectBits mk 0 0 t cs), ?_, ?_⟩
  · refine Parses.bind (BitMask.parses_fromWire be M hMw) (parses_failIf _ _ rfl ?_)
    rw [hstart]
    simp only
    exact Parses.map (p f c (t.length + 1) ws hfu hw.symm hlast fun j _ => hRbit j) _
  · obtain ⟨h1, h2⟩ := applyBits_get hsz hcl sz hsz' (selectBits mk 0 0 t cs) ws hw.symm
      (fun b hb' => (g.mem b hb').2.1) g.apart
    refine ⟨h1, ?_⟩
    intro i d x y hd hx hy
    obtain ⟨h3, h4⟩ := h2 i d x y hd hx hy
    have hcov : Transferred mask t cs i ↔ ∃ b ∈ selectBits mk 0 0 t cs, b ≤ i ∧ i < b + sz b := by
      constructor
      · rintro ⟨b, hb1, hb2⟩
        have hbl := hpl b hb1
        rw [hwithin b i hbl] at hb2
        obtain ⟨a, ha, ha1, ha2⟩ := g.cover b (Nat.zero_le _) hbl ((hp b).mpr hb1)
        have := hlam' a b (g.mem a ha).2.1 hbl ha1 ha2
        exact ⟨a, ha, by omega, by omega⟩
      · rintro ⟨b, hb1, hb2⟩
        have hm' := g.mem b hb1
        exact ⟨b, (hp b).mp hm'.2.2, (hwithin b i hm'.2.1).mpr hb2⟩
    refine ⟨fun hn => h3 ?_, fun ht' hc => ?_, fun ht' hc => ?_⟩
    · intro b hb' hbi
      exact hn (hcov.mpr ⟨b, hb', hbi⟩)
    · obtain ⟨b, hb1, hb2, hb3⟩ := hcov.mp ht'
      rw [h4 b hb1 hb2 hb3, if_neg hc]
    · obtain ⟨b, hb1, hb2, hb3⟩ := hcov.mp ht'
      rw [h4 b hb1 hb2 hb3, if_pos hc]
      refine ⟨_, rfl, ?_⟩
      rw [Bool.or_eq_true]
      refine or_congr Iff.rfl ?_
      rw [beq_iff_eq]
      constructor
      · rintro rfl
        refine ⟨(hp i).mp (g.mem i hb1).2.2, ?_⟩
        intro a ha1 ha2
        have hal := hpl a ha1
        rw [hwithin a i hal] at ha2
        obtain ⟨a', h5, h6, h7⟩ := g.cover a (Nat.zero_le _) hal ((hp a).mpr ha1)
        have := hlam' a' a (g.mem a' h5).2.1 hal h6 h7
        by_cases hai : a = i
        · exact hai
        · exfalso
          have hap := g.apart
          have := pairwise_lt_apart hap a' i h5 hb1 (by omega)
          omega
      · rintro ⟨h5, h6⟩
        exact (h6 b ((hp b).mp (g.mem b hb1).2.2) ((hwithin b i (g.mem b hb1).2.1).mpr ⟨hb2, hb3⟩)).symm

end Pvxs
