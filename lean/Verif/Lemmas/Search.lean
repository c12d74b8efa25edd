import Verif.Lemmas.Udp
import Verif.Model.Search
/-
Output into a buffer of limited size; the packets of a client.
-/
namespace Pvxs.Wire

/-- `e` adds these bytes if there is room, and otherwise fails -/
structure Fits (be : Bool) (e : Out → Out) (bs : List Byte) : Prop where
  ok : ∀ d r, bs.length ≤ r → e ⟨be, false, some r, d⟩ = ⟨be, false, some (r - bs.length), d ++ bs⟩
  full : ∀ d r, r < bs.length → (e ⟨be, false, some r, d⟩).err = true
  err : ∀ o : Out, o.err = true → (e o).err = true

theorem Fits.comp {be : Bool} {e f : Out → Out} {a b : List Byte} (he : Fits be e a) (hf : Fits be f b) : Fits be (fun o => f (e o)) (a ++ b) where
  ok := by
    intro d r h
    rw [List.length_append] at h
    show f (e _) = _
    rw [he.ok d r (by omega), hf.ok _ _ (by omega), List.length_append, List.append_assoc, Nat.sub_sub]
  full := by
    intro d r h
    rw [List.length_append] at h
    show (f (e _)).err = true
    by_cases h1 : a.length ≤ r
    · rw [he.ok d r h1]; exact hf.full _ _ (by omega)
    · exact hf.err _ (he.full d r (by omega))
  err := fun o h => hf.err _ (he.err o h)

theorem fits_write (be : Bool) (bs : List Byte) : Fits be (fun o => o.write bs) bs where
  ok := by
    intro d r h
    show Out.write _ _ = _
    unfold Out.write Out.ensure
    simp [h, Out.put]
  full := by
    intro d r h
    show (Out.write _ _).err = true
    unfold Out.write Out.ensure
    have : ¬bs.length ≤ r := by omega
    simp [this, Out.fault]
  err := by
    intro o h
    show (Out.write _ _).err = true
    unfold Out.write Out.ensure
    simp [h, Out.fault]

theorem fits_putU8 (be : Bool) (b : Byte) : Fits be (fun o => putU8 o b) [b] := fits_write be [b]

theorem fits_putInt (be : Bool) (n v : Nat) : Fits be (fun o => putInt o n v) (wireBytes be n v) where
  ok := (fits_write be (wireBytes be n v)).ok
  full := (fits_write be (wireBytes be n v)).full
  err := fun o h => (fits_write o.be (wireBytes o.be n v)).err o h

theorem fits_putSize (be : Bool) (n : Nat) (h : n ≤ 0xffffffff) : Fits be (fun o => putSize o n) (sizeBytes be n) where
  ok := by
    intro d r hr
    show putSize _ _ = _
    unfold putSize
    unfold sizeBytes at hr ⊢
    by_cases hn : n < 254
    · simp only [hn, if_true, List.length_cons, List.length_nil] at hr ⊢
      simp [Out.ensure, hr, Out.put]
    · simp only [hn, if_false, List.length_cons, wireBytes_length] at hr ⊢
      have h1 : 1 ≤ r := by omega
      simp only [Out.ensure, Bool.not_false, Bool.true_and, h1, decide_true, Bool.not_true, Bool.false_eq_true, if_false, h, if_true]
      have := (fits_putInt be 4 n).ok (d ++ [254]) (r - 1) (by rw [wireBytes_length]; omega)
      simp only [Out.put, Option.map_some, List.length_cons, List.length_nil]
      rw [this, wireBytes_length]
      simp only [Out.mk.injEq, Option.some.injEq, true_and]
      exact ⟨by omega, by simp⟩
  full := by
    intro d r hr
    show (putSize _ _).err = true
    unfold putSize
    unfold sizeBytes at hr
    by_cases hn : n < 254
    · simp only [hn, if_true, List.length_cons, List.length_nil] at hr
      have : ¬1 ≤ r := by omega
      simp [Out.ensure, this, Out.fault]
    · simp only [hn, if_false, List.length_cons, wireBytes_length] at hr
      by_cases h1 : 1 ≤ r
      · simp only [Out.ensure, Bool.not_false, Bool.true_and, h1, decide_true, Bool.not_true, Bool.false_eq_true, if_false, h, if_true]
        have := (fits_putInt be 4 n).full (d ++ [254]) (r - 1) (by rw [wireBytes_length]; omega)
        simp only [Out.put, Option.map_some, List.length_cons, List.length_nil, hn, if_false]
        exact this
      · simp [Out.ensure, h1, Out.fault]
  err := by
    intro o ho
    show (putSize _ _).err = true
    unfold putSize
    simp [Out.ensure, ho, Out.fault]

theorem fits_putStr (be : Bool) (s : List Byte) (h : s.length ≤ 0xffffffff) : Fits be (fun o => putStr o s) (strBytes be s) :=
  (fits_putSize be s.length h).comp (fits_write be s)

end Pvxs.Wire

namespace Pvxs.Search
open Wire

/-- name and identifier of a channel to be searched for -/
def item (c : Ctx) (n : Nat) : Option (Str × Nat) := match c.chans n with
  | none => none
  | some ch => if ch.wanted = false then none else some (ch.name, ch.cid)

def itemBytes (x : Str × Nat) : List Byte := wireBytes true 4 x.2 ++ strBytes true x.1

/-- what becomes of one entry of a bucket -/
def placeOne (kind : Kind) (poked : Bool) (idx : Nat) (c : Ctx) (n : Nat) : Ctx := match c.chans n with
  | none => c
  | some ch => if ch.wanted = false then c else place kind poked idx n ch c

theorem item_place (kind : Kind) (poked : Bool) (idx n : Nat) (ch : Chan) (c : Ctx) (h : c.chans n = some ch) (m : Nat) :
    item (place kind poked idx n ch c) m = item c m := by
  unfold place
  split
  · unfold item Ctx.push Ctx.setChan
    dsimp only
    by_cases hm : m = n
    · subst hm
      rw [if_pos rfl, h]
      rfl
    · rw [if_neg hm]
  · rfl

theorem item_placeOne (kind : Kind) (poked : Bool) (idx : Nat) (c : Ctx) (n m : Nat) : item (placeOne kind poked idx c n) m = item c m := by
  unfold placeOne
  split
  · rfl
  · rename_i ch h
    split
    · rfl
    · exact item_place _ _ _ _ _ _ h m

theorem item_placeAll (kind : Kind) (poked : Bool) (idx : Nat) (l : List Nat) (c : Ctx) (m : Nat) :
    item (l.foldl (placeOne kind poked idx) c) m = item c m := by
  induction l generalizing c with
  | nil => rfl
  | cons a l ih => rw [List.foldl_cons, ih, item_placeOne]

theorem strBytes_length (be : Bool) (s : List Byte) : s.length + 1 ≤ (strBytes be s).length ∧ (strBytes be s).length ≤ s.length + 5 := by
  unfold strBytes sizeBytes
  split <;> simp [wireBytes_length] <;> omega

theorem itemBytes_length (x : Str × Nat) : x.1.length + 5 ≤ (itemBytes x).length ∧ (itemBytes x).length ≤ x.1.length + 9 := by
  unfold itemBytes
  have := strBytes_length true x.1
  rw [List.length_append, wireBytes_length]
  omega

theorem fits_item (x : Str × Nat) (h : x.1.length ≤ 0xffffffff) : Fits true (fun o => putStr (putInt o 4 x.2) x.1) (itemBytes x) :=
  (fits_putInt true 4 x.2).comp (fits_putStr true x.1 h)

/-- the buffer with these names -/
def buf (pre : List Byte) (l : List (Str × Nat)) : Out :=
  ⟨true, false, some (0x10000 - (pre ++ l.flatMap itemBytes).length), pre ++ l.flatMap itemBytes⟩

/-- a packet is full or has one name -/
def Bound (pre : List Byte) (l : List (Str × Nat)) : Prop := l.length ≤ 1 ∨ (pre ++ l.flatMap itemBytes).length ≤ maxSearchPayload

structure FillOk (kind : Kind) (poked : Bool) (idx : Nat) (pre : List Byte) (done : List (Str × Nat)) (bucket : List Nat) (c : Ctx) (r : Fill) : Prop where
  out : ∃ used new, bucket = used ++ r.left ∧ new = used.filterMap (item c) ∧ r.out = buf pre (done ++ new) ∧ r.count = (done ++ new).length ∧
    Bound pre (done ++ new) ∧ r.ctx = used.foldl (placeOne kind poked idx) c
  left : r.left ≠ [] → r.count ≠ 0

theorem fill_ok (kind : Kind) (poked : Bool) (idx : Nat) (pre : List Byte) (hp : pre.length ≤ 41) (bucket : List Nat) (done : List (Str × Nat)) (c : Ctx)
    (hs : ∀ n ∈ bucket, ∀ x, item c n = some x → x.1.length ≤ 32738) (hd : ∀ x ∈ done, x.1.length ≤ 32738) (hb : Bound pre done) :
    FillOk kind poked idx pre done bucket c (fill kind poked idx bucket (buf pre done) done.length c) := by
  induction bucket generalizing done c with
  | nil => exact ⟨⟨[], [], rfl, rfl, by simp [fill], by simp [fill], by simpa using hb, rfl⟩, fun h => absurd rfl h⟩
  | cons n rest ih =>
    have hs' : ∀ m ∈ rest, ∀ x, item c m = some x → x.1.length ≤ 32738 := fun m hm => hs m (List.mem_cons_of_mem _ hm)
    have skip : item c n = none → placeOne kind poked idx c n = c →
        FillOk kind poked idx pre done (n :: rest) c (fill kind poked idx rest (buf pre done) done.length c) := by
      intro hi hpl
      obtain ⟨⟨used, new, h1, h2, h3, h4, h5, h6⟩, h7⟩ := ih done c hs' hd hb
      refine ⟨⟨n :: used, new, by rw [List.cons_append, ← h1], ?_, h3, h4, h5, ?_⟩, h7⟩
      · rw [List.filterMap_cons, hi]; exact h2
      · rw [List.foldl_cons, hpl]; exact h6
    rw [fill]
    cases hc : c.chans n with
    | none => exact skip (by simp [item, hc]) (by simp [placeOne, hc])
    | some ch =>
      dsimp only
      cases hw : ch.wanted with
      | false => exact skip (by simp [item, hc, hw]) (by simp [placeOne, hc, hw])
      | true =>
        rw [if_neg (by decide)]
        have hit : item c n = some (ch.name, ch.cid) := by simp [item, hc, hw]
        have hlen := hs n (List.mem_cons_self ..) _ hit
        dsimp only at hlen
        have hi := itemBytes_length (ch.name, ch.cid)
        dsimp only at hi
        have hdl : (pre ++ done.flatMap itemBytes).length ≤ 32788 := by
          rcases hb with h | h
          · match done, h, hd with
            | [], _, _ => simp; omega
            | [x], _, hd =>
              have := hd x (by simp)
              have := itemBytes_length x
              simp; omega
          · unfold maxSearchPayload at h; omega
        have e : putStr (putInt (buf pre done) 4 ch.cid) ch.name = buf pre (done ++ [(ch.name, ch.cid)]) := by
          have := (fits_item (ch.name, ch.cid) (by dsimp only; omega)).ok (pre ++ done.flatMap itemBytes) (0x10000 - (pre ++ done.flatMap itemBytes).length) (by omega)
          unfold buf
          dsimp only at this
          rw [this]
          simp only [List.flatMap_append, List.flatMap_cons, List.flatMap_nil, List.append_nil, List.append_assoc, List.length_append, Out.mk.injEq,
            Option.some.injEq, true_and, and_true]
          omega
        rw [e]
        rw [if_neg (by simp [buf])]
        split
        · rename_i hfull
          refine ⟨⟨[], [], by simp, rfl, by simp, by simp, by simpa using hb, rfl⟩, fun _ => hfull.2⟩
        · rename_i hfull
          have hb' : Bound pre (done ++ [(ch.name, ch.cid)]) := by
            by_cases h0 : done.length = 0
            · left; simp [h0]
            · right
              have : ¬(buf pre (done ++ [(ch.name, ch.cid)])).data.length > maxSearchPayload := fun h => hfull ⟨h, h0⟩
              unfold buf at this
              dsimp only at this
              omega
          have hl : done.length + 1 = (done ++ [(ch.name, ch.cid)]).length := by simp
          rw [hl]
          have hpl : placeOne kind poked idx c n = place kind poked idx n ch c := by simp [placeOne, hc, hw]
          rw [← hpl]
          obtain ⟨⟨used, new, h1, h2, h3, h4, h5, h6⟩, h7⟩ := ih (done ++ [(ch.name, ch.cid)]) (placeOne kind poked idx c n)
            (fun m hm x hx => hs' m hm x (by rwa [item_placeOne] at hx))
            (fun x hx => by
              rcases List.mem_append.mp hx with h | h
              · exact hd x h
              · rw [List.mem_singleton.mp h]; exact hlen) hb'
          refine ⟨⟨n :: used, (ch.name, ch.cid) :: new, by rw [List.cons_append, ← h1], ?_, ?_, ?_, ?_, ?_⟩, h7⟩
          · rw [List.filterMap_cons, hit]
            dsimp only
            rw [h2]
            rw [show item (placeOne kind poked idx c n) = item c from funext fun m => item_placeOne ..]
          · simpa using h3
          · simpa using h4
          · simpa using h5
          · rw [List.foldl_cons]; exact h6

/-- up to the names, not counting their number -/
def preBytes (port : Nat) : List Byte :=
  List.replicate 8 0 ++ wireBytes true 4 0x66696e64 ++ [0] ++ [0] ++ wireBytes true 2 0 ++ wireBytes true 4 0 ++ wireBytes true 4 0 ++ wireBytes true 4 0 ++
    wireBytes true 4 0 ++ wireBytes true 2 port ++ [1] ++ strBytes true [0x74, 0x63, 0x70] ++ [0, 0]

theorem start_eq (kind : Kind) (hk : kind ≠ .discover) (port : Nat) : start kind port = buf (preBytes port) [] := by
  unfold start
  simp only [hk, if_false]
  have h := ((((((((((((fits_write true (List.replicate 8 0)).comp (fits_putInt true 4 0x66696e64)).comp (fits_putU8 true 0)).comp (fits_putU8 true 0)).comp
    (fits_putInt true 2 0)).comp (fits_putInt true 4 0)).comp (fits_putInt true 4 0)).comp (fits_putInt true 4 0)).comp (fits_putInt true 4 0)).comp
    (fits_putInt true 2 port)).comp (fits_putU8 true 1)).comp (fits_putStr true [0x74, 0x63, 0x70] (by decide))).comp (fits_write true [0, 0])
  have := h.ok [] 0x10000 (by
    simp only [List.length_append, wireBytes_length, List.length_replicate, List.length_cons, List.length_nil]
    decide)
  rw [this]
  unfold buf preBytes
  simp

theorem preBytes_length (port : Nat) : (preBytes port).length = 41 := by
  unfold preBytes
  simp only [List.length_append, wireBytes_length, List.length_replicate, List.length_cons, List.length_nil]
  decide

/-- a packet with these names -/
def pktBytes (kind : Kind) (port : Nat) (g : List (Str × Nat)) : List Byte := finish kind (buf (preBytes port) g) g.length

theorem loop_ok (kind : Kind) (hk : kind ≠ .discover) (poked : Bool) (port idx : Nat) (f : Nat) (bucket : List Nat) (hf : bucket.length < f) (c : Ctx)
    (hs : ∀ n ∈ bucket, ∀ x, item c n = some x → x.1.length ≤ 32738) :
    ∃ groups : List (List (Str × Nat)), (loop kind poked port idx f bucket c).1 = groups.map (pktBytes kind port) ∧
      groups.flatten = bucket.filterMap (item c) ∧ (∀ g ∈ groups, g ≠ [] ∧ Bound (preBytes port) g) ∧
      (loop kind poked port idx f bucket c).2 = bucket.foldl (placeOne kind poked idx) c := by
  induction f generalizing bucket c with
  | zero => omega
  | succ f ih =>
    rw [loop]
    by_cases hb : bucket = []
    · rw [if_pos ⟨hb, hk⟩]
      exact ⟨[], rfl, by simp [hb], by simp, by simp [hb]⟩
    · rw [if_neg fun h => hb h.1, start_eq kind hk]
      obtain ⟨⟨used, new, h1, h2, h3, h4, h5, h6⟩, h7⟩ := fill_ok kind poked idx (preBytes port) (by rw [preBytes_length]; omega) bucket [] c hs (by simp)
        (Or.inl (by simp))
      simp only [List.length_nil, List.nil_append] at h1 h2 h3 h4 h5 h6 h7 ⊢
      generalize fill kind poked idx bucket (buf (preBytes port) []) 0 c = r at h1 h3 h4 h6 h7 ⊢
      rw [h3, if_neg (by simp [buf])]
      by_cases h0 : r.count = 0
      · rw [if_pos ⟨h0, hk⟩]
        have hl : r.left = [] := Classical.byContradiction fun h => h7 h h0
        rw [hl, List.append_nil] at h1
        subst h1
        have hn : new = [] := List.length_eq_zero_iff.mp (by omega)
        exact ⟨[], rfl, by rw [← h2, hn]; rfl, by simp, h6⟩
      · rw [if_neg fun h => h0 h.1, if_neg hk]
        have hu : used ≠ [] := by
          intro hu
          rw [hu] at h2
          rw [h2] at h4
          exact h0 h4
        have hlen : r.left.length < f := by
          have : used.length ≠ 0 := fun h => hu (List.length_eq_zero_iff.mp h)
          rw [h1, List.length_append] at hf
          omega
        have hit : ∀ m, item r.ctx m = item c m := fun m => by rw [h6, item_placeAll]
        obtain ⟨gs, g1, g2, g3, g4⟩ := ih r.left hlen r.ctx fun n hn x hx => hs n (by rw [h1]; exact List.mem_append_right _ hn) x (by rw [← hit]; exact hx)
        refine ⟨new :: gs, ?_, ?_, ?_, ?_⟩
        · rw [List.map_cons, ← g1, h4]; rfl
        · rw [List.flatten_cons, g2, h1, List.filterMap_append, h2]
          rw [show item r.ctx = item c from funext hit]
        · intro g hg
          rcases List.mem_cons.mp hg with rfl | hg
          · exact ⟨fun h => h0 (by rw [h4, h]; rfl), h5⟩
          · exact g3 g hg
        · show (loop kind poked port idx f r.left r.ctx).2 = _
          rw [g4, h1, List.foldl_append, h6]

end Pvxs.Search
