import Verif.Lemmas.Packet
import Verif.Spec.Udp
/-! The decoders of src/udp_collector.cpp accept exactly what the grammar says. -/
namespace Pvxs.Udp
open Wire Spec Spec.Packet Spec.Udp

theorem reads_guard {d : Dec α} {G : Bool → α → List Byte → Prop} (dflt : α) (h : Reads d G) :
    Reads (fun i => if i.err then (dflt, i) else d i) G where
  err i hi := by simp [hi]
  be i := by
    cases hi : i.err
    · simp [h.be]
    · simp
  exact be l a r := by simpa using h.exact be l a r

theorem bind_apply' (d : Dec α) (f : α → Dec β) (i : In) : (d >>= f) i = f (d i).1 (d i).2 := rfl

theorem header_iff (b : Bool) (pkt : List Byte) (h : Header) (i : In) :
    (getHeader ⟨b, false, pkt⟩ = (h, i) ∧ i.err = false) ↔
      i.err = false ∧ ∃ bs, pkt = bs ++ i.rest ∧ IsHeader i.be h.cmd h.flags h.version h.len bs := by
  match pkt with
  | m :: v :: f :: c :: b0 :: b1 :: b2 :: b3 :: rest =>
    rw [getHeader_eq]
    by_cases hm : m = 0xca ∧ v ≠ 0
    · obtain ⟨rfl, hv⟩ := hm
      simp only [ne_eq, hv, not_true_eq_false, decide_false, or_self, Bool.false_eq_true, if_false, not_false_eq_true, true_and, and_self, if_true]
      constructor
      · rintro ⟨h1, h2⟩
        refine ⟨h2, ?_⟩
        injection h1 with h1 h3
        subst h1 h3
        refine ⟨[0xca, v, f, c, b0, b1, b2, b3], rfl, ⟨?_, hv, [b0, b1, b2, b3], ?_, rfl⟩⟩
        · simp only [flagMSB]
          by_cases hf : f &&& 128 = 0 <;> simp [hf]
        · refine (num_iff _ 4 _ _).mp ⟨rfl, ?_⟩
          simp only [List.reverse_cons, List.reverse_nil, List.nil_append, List.cons_append]
          by_cases hf : f &&& flagMSB = 0 <;> simp [hf]
      · rintro ⟨h2, bs, hp, ho, hv', d, hd, rfl⟩
        refine ⟨?_, h2⟩
        obtain ⟨dl, dv⟩ := (num_iff _ 4 _ _).mpr hd
        match d, dl with
        | [d0, d1, d2, d3], _ =>
          simp only [List.cons_append, List.nil_append, List.cons.injEq] at hp
          obtain ⟨_, rfl, rfl, rfl, rfl, rfl, rfl, rfl, rfl⟩ := hp
          obtain ⟨cmd, flags, version, len⟩ := h
          obtain ⟨ibe, ierr, irest⟩ := i
          simp only at h2 ho dv
          subst h2 ho dv
          simp only [flagMSB]
          by_cases hf : flags &&& 128 = 0 <;> simp [hf]
    · constructor
      · rintro ⟨h1, h2⟩
        exfalso
        rw [if_pos (by
          by_cases hm1 : m = 0xca
          · exact Or.inr (Classical.byContradiction fun hv => hm ⟨hm1, hv⟩)
          · exact Or.inl hm1)] at h1
        injection h1 with h1 h3
        subst h3
        simp [In.fault] at h2
      · rintro ⟨h2, bs, hp, ho, hv', d, hd, rfl⟩
        obtain ⟨dl, dv⟩ := (num_iff _ 4 _ _).mpr hd
        simp only [List.cons_append, List.nil_append, List.cons.injEq] at hp
        exact absurd ⟨hp.1, by rw [hp.2.1]; exact hv'⟩ hm
  | [] | [_] | [_, _] | [_, _, _] | [_, _, _, _] | [_, _, _, _, _] | [_, _, _, _, _, _] | [_, _, _, _, _, _, _] =>
    constructor
    · rintro ⟨h1, h2⟩
      have h3 := congrArg Prod.snd h1
      rw [getHeader_short _ (by simp)] at h3
      simp only at h3
      rw [← h3] at h2
      simp [In.fault] at h2
    · rintro ⟨h2, bs, hp, ho, hv', d, hd, rfl⟩
      exfalso
      obtain ⟨dl, dv⟩ := (num_iff _ 4 _ _).mpr hd
      have := congrArg List.length hp
      simp [dl] at this
      try omega

theorem reads_getHead : Reads getHead (fun be x bs => IsSearchHead be x.1 x.2.1 x.2.2.1 x.2.2.2 bs) := by
  have h := (reads_getInt 4).bind fun id => reads_getU8.bind fun flags => (reads_skip 3).bind fun _ => reads_getAddr.bind fun a =>
    (reads_getInt 2).bind fun p => Reads.pure (id, flags, a, p)
  refine Reads.imp (d := getHead) h ?_
  rintro be ⟨id, flags, a, p⟩ bs
  constructor
  · rintro ⟨id', u1, v1, rfl, h1, flags', u2, v2, rfl, rfl, _, u3, v3, rfl, h3, a', u4, v4, rfl, h4, p', u5, v5, rfl, h5, h6, rfl⟩
    injection h6 with h6 h7
    injection h7 with h7 h8
    injection h8 with h8 h9
    subst h6 h7 h8 h9
    exact ⟨u1, u3, u4, u5, h1, h3, h4, h5, by simp⟩
  · rintro ⟨u1, u3, u4, u5, h1, h3, h4, h5, rfl⟩
    exact ⟨id, u1, _, rfl, h1, flags, [flags], _, rfl, rfl, (), u3, _, rfl, h3, a, u4, u5, rfl, h4, p, u5, [], by simp, h5, rfl, rfl⟩

theorem reads_getProtos (n : Nat) (tcp : Bool) : Reads (getProtos n tcp) (fun be x bs => ∃ ps, ps.length = n ∧ IsSeq (IsStr be) ps bs ∧
    x = (tcp || decide (tcpName ∈ ps), ps.filter fun p => decide (p ≠ [] ∧ p ≠ tcpName))) := by
  induction n generalizing tcp with
  | zero =>
    refine (Reads.pure (tcp, [])).imp ?_
    intro be x bs
    constructor
    · rintro ⟨rfl, rfl⟩
      exact ⟨[], rfl, .nil, by simp⟩
    · rintro ⟨ps, hl, hs, rfl⟩
      cases ps with
      | nil => cases hs; exact ⟨by simp, rfl⟩
      | cons => cases hl
  | succ n ih =>
    have h := reads_guard (tcp, []) (reads_getStr.bind (f := fun p => if p = [0x74, 0x63, 0x70] then getProtos n true
        else getProtos n tcp >>= fun r => pure (r.1, if p = [] then r.2 else p :: r.2))
      (H := fun p be x bs => ∃ ps, ps.length = n ∧ IsSeq (IsStr be) ps bs ∧
        x = (tcp || decide (tcpName ∈ p :: ps), (p :: ps).filter fun p => decide (p ≠ [] ∧ p ≠ tcpName))) ?_)
    · have e : getProtos (n + 1) tcp = (fun i => if i.err then ((tcp, []), i) else (getStr >>= fun p => if p = [0x74, 0x63, 0x70] then getProtos n true
        else getProtos n tcp >>= fun r => pure (r.1, if p = [] then r.2 else p :: r.2)) i) := by
        funext i
        rw [getProtos]
        show (if i.err then _ else _) = _
        rw [Dec.bind_apply]
        by_cases hi : i.err = true
        · rw [if_pos hi, if_pos hi]
        · rw [if_neg hi, if_neg hi]
          generalize getStr i = x
          by_cases hx : x.1 = [0x74, 0x63, 0x70]
          · simp only [if_pos hx]
          · simp only [if_neg hx]; rfl
      rw [e]
      refine h.imp ?_
      intro be x bs
      constructor
      · rintro ⟨p, u, v, rfl, hp, ps, hl, hs, rfl⟩
        exact ⟨p :: ps, by rw [List.length_cons, hl], .cons hp hs, rfl⟩
      · rintro ⟨ps, hl, hs, rfl⟩
        cases hs with
        | nil => cases hl
        | cons hp hs => exact ⟨_, _, _, rfl, hp, _, by simpa using hl, hs, rfl⟩
    · intro p
      split
      · rename_i hp
        refine (ih true).imp ?_
        intro be x bs
        constructor
        · rintro ⟨ps, hl, hs, rfl⟩; exact ⟨ps, hl, hs, by subst hp; simp [tcpName]⟩
        · rintro ⟨ps, hl, hs, rfl⟩; exact ⟨ps, hl, hs, by subst hp; simp [tcpName]⟩
      · rename_i hp
        refine ((ih tcp).bind fun r => Reads.pure _).imp ?_
        have hpt : ¬(tcpName = p) := fun h => hp h.symm
        have hpt' : p ≠ tcpName := hp
        intro be x bs
        constructor
        · rintro ⟨r, u, v, rfl, ⟨ps, hl, hs, rfl⟩, rfl, rfl⟩
          refine ⟨ps, hl, by simpa using hs, ?_⟩
          simp only [List.mem_cons, hpt, false_or, List.filter_cons]
          by_cases h0 : p = [] <;> simp [h0, hpt']
        · rintro ⟨ps, hl, hs, rfl⟩
          refine ⟨_, bs, [], by simp, ⟨ps, hl, hs, rfl⟩, ?_, rfl⟩
          simp only [List.mem_cons, hpt, false_or, List.filter_cons]
          by_cases h0 : p = [] <;> simp [h0, hpt']

def nameStep (tcp : Bool) (id n : Nat) : Dec (Option (List Byte × Nat)) :=
  fun i => (if tcp && decide (n ≤ i.rest.length) && !i.err then some (cstr (i.rest.take n), id) else none, i.skip n)

theorem reads_name (tcp : Bool) (id n : Nat) :
    Reads (nameStep tcp id n)
      (fun _ a bs => bs.length = n ∧ a = if tcp then some (cstr bs, id) else none) where
  err i h := (reads_skip n).err i h
  be i := (reads_skip n).be i
  exact be l a r := by
    simp only [In.skip, nameStep]
    by_cases hn : n ≤ l.length
    · simp only [hn, if_true, Prod.mk.injEq, In.mk.injEq, true_and, decide_true, Bool.not_false, Bool.and_true]
      constructor
      · rintro ⟨rfl, rfl⟩
        exact ⟨l.take n, (List.take_append_drop n l).symm, by rw [List.length_take]; omega, rfl⟩
      · rintro ⟨bs, rfl, hl, rfl⟩
        rw [← hl, List.drop_left, List.take_left]
        exact ⟨rfl, rfl⟩
    · simp only [hn, if_false, Prod.mk.injEq, In.mk.injEq, Bool.true_eq_false, false_and, and_false, false_iff]
      rintro ⟨bs, rfl, hl, _⟩
      rw [List.length_append] at hn
      omega

theorem reads_getNames (tcp : Bool) (n : Nat) : Reads (getNames tcp n) (fun be x bs => ∃ ns : List (List Byte × Nat), ns.length = n ∧
    IsSeq (IsName be) ns bs ∧ x = if tcp then ns.map fun y => (cstr y.1, y.2) else []) := by
  induction n with
  | zero =>
    refine (Reads.pure []).imp ?_
    intro be x bs
    constructor
    · rintro ⟨rfl, rfl⟩
      exact ⟨[], rfl, .nil, by simp⟩
    · rintro ⟨ps, hl, hs, rfl⟩
      cases ps with
      | nil => cases hs; exact ⟨by simp, rfl⟩
      | cons => cases hl
  | succ n ih =>
    have h := reads_guard [] ((reads_getInt 4).bind fun id => reads_getSize.bind fun len => (reads_name tcp id len).bind fun o =>
      ih.bind fun r => Reads.pure (o.toList ++ r))
    have e : getNames tcp (n + 1) = (fun i => if i.err then ([], i) else (getInt 4 >>= fun id => getSize false >>= fun len =>
        nameStep tcp id len >>= fun o =>
        getNames tcp n >>= fun r => pure (o.toList ++ r)) i) := by
      funext i
      rw [getNames]
      show (if i.err then _ else _) = _
      by_cases hi : i.err = true
      · rw [if_pos hi, if_pos hi]
      · rw [if_neg hi, if_neg hi]
        simp only [bind_apply', Dec.pure_apply, nameStep]
        generalize getSize false (getInt 4 i).2 = x
        by_cases hx : (tcp && decide (x.1 ≤ x.2.rest.length) && !x.2.err) = true
        · simp only [if_pos hx]; rfl
        · simp only [if_neg hx]; rfl
    rw [e]
    refine h.imp ?_
    intro be x bs
    constructor
    · rintro ⟨id, u1, v1, rfl, h1, len, u2, v2, rfl, h2, o, u3, v3, rfl, ⟨h3, rfl⟩, r, u4, v4, rfl, ⟨ns, hl, hs, rfl⟩, rfl, rfl⟩
      refine ⟨(u3, id) :: ns, by rw [List.length_cons, hl], ?_, ?_⟩
      · have := IsSeq.cons (P := IsName be) (a := (u3, id)) ⟨u1, u2, h1, by rw [h3]; exact h2, rfl⟩ hs
        simpa using this
      · cases tcp <;> rfl
    · rintro ⟨ps, hl, hs, rfl⟩
      cases hs with
      | nil => cases hl
      | @cons a l _ _ hp hs =>
        obtain ⟨nm, id⟩ := a
        obtain ⟨i, z, hi, hz, rfl⟩ := hp
        rename_i bs'
        refine ⟨id, i, z ++ (nm ++ bs'), by simp only [List.append_assoc], hi, nm.length, z, _, rfl, hz, _, nm, bs', rfl, ⟨rfl, rfl⟩, _, bs', [],
          (List.append_nil _).symm, ⟨_, by simpa using hl, hs, rfl⟩, ?_, rfl⟩
        cases tcp <;> rfl

theorem reads_getBody (tcp : Bool) : Reads (getBody tcp) (fun be x bs => ∃ protos names, IsSearchBody be protos names bs ∧
    x = ((tcp || decide (tcpName ∈ protos), protos.filter fun p => decide (p ≠ [] ∧ p ≠ tcpName)),
      if tcp || decide (tcpName ∈ protos) then names.map fun y => (cstr y.1, y.2) else [])) := by
  have h := reads_getSize.bind fun np => (reads_getProtos np tcp).bind fun ps => (reads_getInt 2).bind fun nc => (reads_getNames ps.1 nc).bind
    fun ns => Reads.pure (ps, ns)
  refine Reads.imp (d := getBody tcp) h ?_
  intro be x bs
  constructor
  · rintro ⟨np, u1, v1, rfl, h1, ps, u2, v2, rfl, ⟨protos, hl, hs, rfl⟩, nc, u3, v3, rfl, h3, ns, u4, v4, rfl, ⟨names, hl', hs', rfl⟩, rfl, rfl⟩
    subst hl hl'
    exact ⟨protos, names, ⟨u1, u2, u3, u4, h1, hs, h3, hs', by simp⟩, rfl⟩
  · rintro ⟨protos, names, ⟨z, p, n, x, h1, hs, h3, hs', rfl⟩, rfl⟩
    exact ⟨_, z, _, rfl, h1, _, p, _, rfl, ⟨protos, rfl, hs, rfl⟩, _, n, _, rfl, h3, _, x, [], by simp, ⟨names, rfl, hs', rfl⟩, rfl, rfl⟩

end Pvxs.Udp
