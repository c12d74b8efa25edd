import Verif.Spec.Handshake
import Verif.Lemmas.ValueMore
import Verif.Props.Wire
/-! Property C74 -/
namespace Pvxs.Props.Handshake
open Pvxs Pvxs.Handshake Pvxs.Spec Pvxs.Spec.Handshake Pvxs.Wire

theorem cstr_lt (s : Str) : (inBuffer s).length < 2 ^ 32 := by
  unfold inBuffer
  rw [List.length_take]
  omega

/-! ### the offer -/

theorem parses_skip (be : Bool) (n : Nat) (bs : List Byte) (h : bs.length = n) : Parses be (skip n) bs () := by
  intro rest
  simp only [skip, In.skip]
  rw [if_pos (by simp; omega), ← h]
  simp

theorem emits_foldStr (be : Bool) (ms : List Str) (h : ∀ m ∈ ms, m.length < 2 ^ 32) :
    Emits be (fun o => ms.foldl putStr o) (ms.flatMap (strBytes be)) := by
  induction ms with
  | nil => exact Emits.id be
  | cons m ms ih =>
    have := Emits.comp (emits_putStr be m (by have := h m (List.mem_cons_self); omega)) (ih fun x hx => h x (List.mem_cons_of_mem _ hx))
    simpa using this

/-- `skip`, which does nothing after a fault -/
def skipG (n : Nat) : Dec Unit := fun i => if i.err then ((), i) else skip n i

theorem good_skipG (n : Nat) : Good (skipG n) where
  suffix i := by
    unfold skipG skip In.skip
    split
    · exact List.suffix_refl _
    · dsimp only
      split
      · exact List.drop_suffix _ _
      · exact List.nil_suffix
  sticky i h := by unfold skipG; rw [if_pos h]
  be i := by
    unfold skipG skip In.skip
    split
    · rfl
    · dsimp only; split <;> rfl
  loc be u r a h r' := by
    simp only [skipG, skip, In.skip, Bool.false_eq_true, if_false] at h ⊢
    split at h
    · rename_i hn
      simp only [Prod.mk.injEq, In.mk.injEq, true_and] at h
      have hl := congrArg List.length h
      simp only [List.length_drop, List.length_append] at hl hn
      have : n = u.length := by omega
      subst this
      rw [if_pos (by simp)]
      simp
    · simp at h

def offerG : Dec (List Str) := do
  skipG 6
  let n ← getSize false
  getStrs n

theorem good_offer : Good offerG := Good.bind (good_skipG 6) fun _ => Good.bind (good_getSize false) fun n => good_getStrs n

theorem getOffer_eq (i : In) (h : i.err = false) : getOffer i = offerG i := by
  simp only [getOffer, offerG, Dec.bind_apply, skipG, h, Bool.false_eq_true, if_false]

def offerBytes (be : Bool) (ms : List Str) : List Byte :=
  (wireBytes be 4 0x10000 ++ wireBytes be 2 0x7fff) ++ (sizeBytes be ms.length ++ ms.flatMap (strBytes be))

theorem emits_offer (be : Bool) (ms : List Str) (hl : ms.length < 2 ^ 32) (h : ∀ m ∈ ms, m.length < 2 ^ 32) :
    Emits be (putOffer ms) (offerBytes be ms) := by
  have := Emits.comp (Emits.comp (Emits.comp (emits_putInt be 4 0x10000) (emits_putInt be 2 0x7fff)) (emits_putSize be ms.length (by omega)))
    (emits_foldStr be ms h)
  unfold offerBytes
  rw [show putOffer ms = fun o => ms.foldl putStr (putSize (putInt (putInt o 4 0x10000) 2 0x7fff) ms.length) from rfl]
  simpa [List.append_assoc] using this

theorem parses_offer (be : Bool) (ms : List Str) (hl : ms.length < 2 ^ 32) (h : ∀ m ∈ ms, m.length < 2 ^ 32) :
    Parses be getOffer (offerBytes be ms) ms := by
  unfold getOffer offerBytes
  refine Parses.bind (parses_skip be 6 _ (by simp [wireBytes_length])) ?_
  refine Parses.bind (parses_getSize be false _ (by omega)) ?_
  exact parses_getStrs be ms (fun s hs => by have := h s hs; omega)

theorem data_of {be : Bool} {e : Out → Out} {bs : List Byte} (h : Emits be e bs) : (e { be := be }).data = bs := by
  rw [h _ rfl rfl rfl]
  simp

theorem choose_ca (l : List Str) : l.foldl choose caName = caName := by
  induction l with
  | nil => rfl
  | cons m l ih =>
    rw [List.foldl_cons]
    have : choose caName m = caName := by
      unfold choose
      split
      · rename_i h; rcases h with h | h
        · exact h
        · exact absurd rfl h.2
      · rfl
    rw [this]; exact ih

theorem choose_spec (l : List Str) (s : Str) (hs : s = [] ∨ s = anonName) :
    (caName ∈ l → l.foldl choose s = caName) ∧ (caName ∉ l → l.foldl choose s = [] ∨ l.foldl choose s = anonName) := by
  induction l generalizing s with
  | nil => exact ⟨fun h => (nomatch h), fun _ => hs⟩
  | cons m l ih =>
    rw [List.foldl_cons]
    by_cases hm : m = caName
    · subst hm
      have : choose s caName = caName := by simp [choose]
      rw [this, choose_ca]
      exact ⟨fun _ => rfl, fun h => absurd List.mem_cons_self h⟩
    · have : choose s m = [] ∨ choose s m = anonName := by
        unfold choose
        split
        · rename_i h; rcases h with h | h
          · exact absurd h hm
          · exact .inr h.1
        · exact hs
      have := ih (choose s m) this
      constructor
      · intro h
        rcases List.mem_cons.mp h with h | h
        · exact absurd h.symm hm
        · exact this.1 h
      · intro h
        exact this.2 fun h' => h (List.mem_cons_of_mem _ h')

theorem selected_spec (l : List Str) : selected l = if caName ∈ l then caName else anonName := by
  have := choose_spec l [] (.inl rfl)
  unfold selected
  by_cases h : caName ∈ l
  · rw [if_pos h, this.1 h]; rfl
  · rw [if_neg h]
    rcases this.2 h with h' | h' <;> rw [h'] <;> rfl

/-! ### what is presented -/

theorem index_user (t : List FieldDesc) (cs : List Cell) (d : FieldDesc) (hd : t[0]? = some d) :
    index false ⟨t, cs, 0⟩ userKey = if d.code = .Struct then .ok ((d.mlookup.find? userKey).map fun o => ⟨t, cs, o⟩) else .ok none := by
  unfold index userKey
  rw [traverse.eq_def]
  simp only [stepLookup, hd]
  by_cases h : d.code = .Struct
  · rw [if_pos h, if_pos h]
    simp only [stepStruct]
    have e1 : ([0x75, 0x73, 0x65, 0x72] : Str).takeWhile (fun c => !endsName c) = [0x75, 0x73, 0x65, 0x72] := by decide
    have e2 : ([0x75, 0x73, 0x65, 0x72] : Str).dropWhile (fun c => !endsName c) = [] := by decide
    simp only [e1, e2, Bool.false_eq_true, false_and, if_false]
    cases hf : d.mlookup.find? [0x75, 0x73, 0x65, 0x72] with
    | none => simp
    | some o =>
      simp [advances]
      rw [traverse.eq_def]
  · rw [if_neg h, if_neg h]
    by_cases h2 : d.code = .Union ∨ d.code = .Any
    · rw [if_pos h2]; simp
    · rw [if_neg h2]
      by_cases h3 : d.code = .StructA ∨ d.code = .UnionA ∨ d.code = .AnyA
      · rw [if_pos h3]
        simp [stepIndex, splitIndex]
      · rw [if_neg h3]; simp

theorem userOf_eq (sr : Nat → Str) (t : List FieldDesc) (cs : List Cell) : userOf sr (.mk t cs) =
    match t[0]? with
    | some d => if d.code = .Struct then (d.mlookup.find? userKey).bind fun o => textOf sr (datumAt cs o) else none
    | none => none := by
  unfold userOf
  cases hd : t[0]? with
  | none =>
    have : index false ⟨t, cs, 0⟩ userKey = .ub := by
      unfold index userKey
      rw [traverse.eq_def]
      simp only [stepLookup, hd]
    simp only [this]
  | some d =>
    simp only [index_user t cs d hd]
    by_cases h : d.code = .Struct
    · simp only [if_pos h]
      cases d.mlookup.find? userKey <;> rfl
    · simp only [if_neg h]

mutual
theorem text_received (sr : Nat → Str) (d : FieldDesc) (x : Datum) (ok : DatumOK d x) : textOf sr (receivedDatum d x) = textOf sr x := by
  match x with
  | .null | .real _ | .int _ | .uint _ | .bool _ | .str _ | .unionNull | .pods _ | .strs _ => simp only [receivedDatum]
  | .vals vs => simp only [receivedDatum, textOf]
  | .union i v =>
    simp only [DatumOK] at ok
    simp only [receivedDatum, textOf]
    match v with
    | .null => simp only [received]
    | .mk t cs =>
      have hc := ok.2.2.1
      simp only [ValOK] at hc
      exact text_receivedVal sr t cs hc.2.2.2
  | .any v =>
    simp only [DatumOK] at ok
    simp only [receivedDatum, textOf]
    match v with
    | .null => simp only [received]
    | .mk t cs =>
      have hc := ok.2
      simp only [AnyOK] at hc
      exact text_receivedVal sr t cs hc.2.2
theorem text_receivedVal (sr : Nat → Str) (t : List FieldDesc) (cs : List Cell) (ok : CellsOK t cs) :
    textVal sr (received (.mk t cs)) = textVal sr (.mk t cs) := by
  match t, cs with
  | [], [] => simp only [received, receivedCells]
  | [], .mk _ _ :: _ => simp only [CellsOK] at ok
  | _ :: _, [] => simp only [CellsOK] at ok
  | d :: t, .mk b x :: cs =>
    simp only [CellsOK] at ok
    simp only [received, receivedCells, textVal]
    exact text_received sr d x ok.1
end

theorem textAt_received (sr : Nat → Str) (b : Bool) (o : Nat) : ∀ (t : List FieldDesc) (cs : List Cell), CellsOK t cs →
    ∀ o, textOf sr (datumAt (receivedCells b t cs) o) = textOf sr (datumAt cs o)
  | [], [], _, o => by simp only [receivedCells]
  | [], .mk _ _ :: _, ok, _ => by simp only [CellsOK] at ok
  | _ :: _, [], ok, _ => by simp only [CellsOK] at ok
  | d :: t, .mk m x :: cs, ok, o => by
    simp only [CellsOK] at ok
    simp only [receivedCells]
    cases o with
    | zero => simpa [datumAt, Cell.data] using text_received sr d x ok.1
    | succ o =>
      have := textAt_received sr b o t cs ok.2 o
      simpa [datumAt] using this

theorem userOf_received (sr : Nat → Str) (v : Val) (ok : AnyOK v) : userOf sr (received v) = userOf sr v := by
  cases v with
  | null => simp only [received]
  | mk t cs =>
    simp only [AnyOK] at ok
    simp only [received]
    rw [userOf_eq, userOf_eq]
    cases t[0]? with
    | none => rfl
    | some d =>
      simp only
      split
      · cases d.mlookup.find? userKey with
        | none => rfl
        | some o => exact textAt_received sr _ o t cs ok.2.2 o
      · rfl

/-! ### the reply -/

theorem codec_auth (be : Bool) (v : Val) (ok : AnyOK v) : ∃ bs, Emits be (putAuth v) bs ∧
    ∀ f c, nesting v ≤ f → Parses be (getTypeAndValue f c) bs (received v, c) := by
  cases v with
  | null =>
    refine ⟨[0xff], ?_, ?_⟩
    · have : putAuth .null = fun o => putU8 o 0xff := by
        funext o; simp only [putAuth]; rw [putType.eq_def]
      rw [this]; exact emits_putU8 be 0xff
    · intro f c _ rest
      simp [getTypeAndValue, getTyped, getTypeTop, getType, failIf, getTypeBody, getU8, In.ensure, received]
  | mk t cs =>
    obtain ⟨bs, e, p⟩ := codec_typed be (nesting (.mk t cs)) (fun w hw => codec_val be _ w hw) t cs ok (Nat.le_refl _)
    refine ⟨bs, ?_, fun f c h => p f c h⟩
    have : putAuth (.mk t cs) = fun o => putCells t cs (putType t o) := by
      funext o; simp only [putAuth, putVal]
    rw [this]; exact e

theorem codec_reply (be : Bool) (m : Str) (v : Val) (hm : m.length < 2 ^ 32) (ok : AnyOK v) : ∃ bs, Emits be (putReply m v) bs ∧
    ∀ f c, nesting v ≤ f → Parses be (getReply f c) bs (m, received v, c) := by
  obtain ⟨bs, e, p⟩ := codec_auth be v ok
  have E := Emits.comp (Emits.comp (Emits.comp (Emits.comp (emits_putInt be 4 0x10000) (emits_putInt be 2 0x7fff)) (emits_putInt be 2 0))
    (emits_putStr be m (by omega))) e
  refine ⟨_, E, ?_⟩
  intro f c hf
  unfold getReply
  rw [List.append_assoc]
  refine Parses.bind (parses_skip be 8 _ (by simp [wireBytes_length])) ?_
  refine Parses.bind (parses_getStr be m (by omega)) ?_
  have := Parses.bind (f := fun r => Pure.pure (m, r.1, r.2)) (p f c hf) (Parses.pure be (m, received v, c))
  rw [List.append_nil] at this
  exact this

theorem validate_reply (sr : Nat → Str) (be : Bool) (f : Nat) (c : Conn) (hc : c.closed = false) (h : Hello) (hs : Spec.Handshake.Sendable f h) :
    validate sr be f c (putReply h.1 h.2 { be := be }).data =
      ({ c with cred := adopt sr c.cred h.1 (received h.2) }, some (accepts h.1)) := by
  obtain ⟨bs, e, p⟩ := codec_reply be h.1 h.2 hs.1 hs.2.1
  have hp := p f c.reg hs.2.2 []
  rw [List.append_nil] at hp
  unfold validate
  rw [hc, data_of e]
  simp only [Bool.false_eq_true, if_false, hp]

/-- who the credentials say the client is -/
def who (c : Cred) : Str × Str := (c.method, c.account)

theorem who_adopt (sr : Nat → Str) (c : Cred) (h : c.method ≠ []) (m : Str) (v : Val) :
    who (adopt sr c m v) = (match (if m = caName then userOf sr v else none) with | some u => (caName, u) | none => who c) ∧
    (adopt sr c m v).method ≠ [] ∧ (adopt sr c m v).raw = v := by
  unfold adopt who
  by_cases hm : m = caName
  · simp only [if_pos hm]
    cases userOf sr v with
    | none => simp [h]
    | some u => subst hm; simp [caName]
  · simp only [if_neg hm]
    simp [h]

theorem account_received (sr : Nat → Str) (h : Hello) (ok : AnyOK h.2) : account sr (h.1, received h.2) = account sr h := by
  unfold account
  rw [userOf_received sr h.2 ok]

theorem lastAccount_cons (sr : Nat → Str) (h : Hello) (l : List Hello) :
    lastAccount sr (h :: l) = (lastAccount sr l).or (account sr h) := by
  unfold lastAccount
  rw [List.filterMap_cons]
  cases account sr h with
  | none => simp
  | some u =>
    simp only
    cases hl : List.filterMap (account sr) l with
    | nil => rfl
    | cons a b => simp [List.getLast?_cons]

theorem history_from (sr : Nat → Str) (f : Nat) (l : List (Bool × Hello)) (hs : ∀ x ∈ l, Spec.Handshake.Sendable f x.2) (c : Conn) (hc : c.closed = false)
    (hm : c.cred.method ≠ []) : (handshakes sr f c (messages l)).closed = false ∧
    who (handshakes sr f c (messages l)).cred = (match lastAccount sr (l.map (·.2)) with | some u => (caName, u) | none => who c.cred) := by
  induction l generalizing c with
  | nil => exact ⟨hc, rfl⟩
  | cons x l ih =>
    have hx := hs x List.mem_cons_self
    simp only [messages, List.map_cons, handshakes, List.foldl_cons]
    rw [validate_reply sr x.1 f c hc x.2 hx]
    have ha := who_adopt sr c.cred hm x.2.1 (received x.2.2)
    have := ih (fun y hy => hs y (List.mem_cons_of_mem _ hy)) { c with cred := adopt sr c.cred x.2.1 (received x.2.2) } hc ha.2.1
    refine ⟨this.1, ?_⟩
    rw [lastAccount_cons]
    have h2 := this.2
    unfold messages handshakes at h2
    rw [h2, ha.1]
    have e : (if x.2.1 = caName then userOf sr (received x.2.2) else none) = account sr x.2 := account_received sr x.2 hx.2.1
    rw [e]
    cases lastAccount sr (l.map (·.2)) <;> cases account sr x.2 <;> rfl

/-! ### C74 -/

theorem caCred_ok (user host : Option Str) : AnyOK (credentials user host) ∧ nesting (credentials user host) = 1 := by
  have h1 : ((user.map inBuffer).getD nobody).length < 2 ^ 32 := by
    cases user with
    | none => decide
    | some u => exact cstr_lt u
  have h2 : ((host.map inBuffer).getD noHost).length < 2 ^ 32 := by
    cases host with
    | none => decide
    | some u => exact cstr_lt u
  constructor
  · unfold credentials
    simp only [AnyOK]
    refine ⟨⟨caMember, ?_, ?_, ?_, rfl⟩, ⟨rfl, rfl, by simp [caType]⟩, ?_⟩
    · simp [caMember, Validated, ValidatedAll, userKey, hostKey]; decide
    · simp [caMember, FitsWire, FitsWireAll, userKey, hostKey]
    · simp [caMember, levels, levelsAll]
    · simp only [caType, CellsOK, DatumOK]
      exact ⟨trivial, ⟨trivial, h1⟩, ⟨trivial, h2⟩, trivial⟩
  · simp [credentials, nesting, nestingCells, nestingDatum]

theorem userOf_credentials (sr : Nat → Str) (user host : Option Str) : userOf sr (credentials user host) = some ((user.map inBuffer).getD nobody) := by
  unfold credentials
  rw [userOf_eq]
  have e : SMap.find? userKey [(hostKey, 2), (userKey, 1)] = some 1 := by decide
  simp [caType, e, datumAt, Cell.data, textOf]

theorem inBuffer_self (u : Str) (h0 : 0 ∉ u) (hl : u.length < 256) : inBuffer u = u := by
  unfold inBuffer
  have : cstr u = u := by
    unfold cstr
    clear hl
    induction u with
    | nil => rfl
    | cons a u ih =>
      rw [List.takeWhile_cons_of_pos (by simp only [bne_iff_ne]; intro h; exact h0 (h ▸ List.mem_cons_self)),
        ih fun h => h0 (List.mem_cons_of_mem _ h)]
  rw [this]
  exact List.take_of_length_le (by omega)

/-- A client of this library connects to a server of this library, in whatever byte orders they send.  The server accepts the handshake, and then its credentials for
this client say method "ca" and, as account, the name of the user who runs the client.  `user`, `host`: what the client's operating system says. -/
theorem C74_agree (sr : Nat → Str) (be sendBE : Bool) (f : Nat) (hf : 1 ≤ f) (user host : Str) (h0 : 0 ∉ user) (hl : user.length < 256) (c : Conn)
    (hc : c.closed = false) (hm : c.cred.method ≠ []) :
    ∃ reply, answer be sendBE (some user) (some host) (putOffer offered { be := be }).data = some reply ∧
      (validate sr sendBE f c reply).2 = some true ∧ (validate sr sendBE f c reply).1.closed = false ∧
      (validate sr sendBE f c reply).1.cred.method = ca ∧ (validate sr sendBE f c reply).1.cred.account = user := by
  have he := emits_offer be offered (by decide) (by decide)
  have hp := parses_offer be offered (by decide) (by decide) []
  rw [List.append_nil] at hp
  have ok := caCred_ok (some user) (some host)
  have hs : Spec.Handshake.Sendable f (caName, credentials (some user) (some host)) := ⟨show caName.length < 2 ^ 32 by decide, ok.1, (by rw [ok.2]; exact hf)⟩
  refine ⟨(putReply caName (credentials (some user) (some host)) { be := sendBE }).data, ?_, ?_⟩
  · unfold answer
    rw [data_of he, hp]
    simp only [Bool.false_eq_true, if_false]
    rw [show selected offered = caName by decide]
    simp
  · have := validate_reply sr sendBE f c hc (caName, credentials (some user) (some host)) hs
    rw [this]
    have hw := who_adopt sr c.cred hm caName (received (credentials (some user) (some host)))
    rw [if_pos rfl, userOf_received sr _ ok.1, userOf_credentials] at hw
    simp only [Option.map_some, Option.getD_some, inBuffer_self user h0 hl] at hw
    refine ⟨rfl, hc, ?_, ?_⟩
    · exact congrArg Prod.fst hw.1
    · exact congrArg Prod.snd hw.1

/-- of a new connection -/
example : ∃ (user : Str) (c : Conn), 0 ∉ user ∧ user.length < 256 ∧ user ≠ [] ∧ c.closed = false ∧ c.cred.method ≠ [] :=
  ⟨[0x62, 0x6f, 0x62], {}, by decide, by decide, by decide, rfl, by decide⟩

/-- Whatever a server offers, a client selects "ca" when it is among the methods offered, with its credentials, and otherwise "anonymous", with none. -/
theorem C74_select (be sendBE : Bool) (user host : Option Str) (methods : List Str) (hl : methods.length < 2 ^ 32) (h : ∀ m ∈ methods, m.length < 2 ^ 32) :
    (ca ∈ methods → answer be sendBE user host (putOffer methods { be := be }).data = some (putReply ca (credentials user host) { be := sendBE }).data) ∧
    (ca ∉ methods → answer be sendBE user host (putOffer methods { be := be }).data = some (putReply anonymous .null { be := sendBE }).data) := by
  have he := emits_offer be methods hl h
  have hp := parses_offer be methods hl h []
  rw [List.append_nil] at hp
  unfold answer
  rw [data_of he, hp]
  simp only [Bool.false_eq_true, if_false]
  rw [selected_spec]
  constructor
  · intro hca
    rw [if_pos (show caName ∈ methods from hca)]
    simp; rfl
  · intro hca
    rw [if_neg (show caName ∉ methods from hca)]
    rw [if_neg (by decide)]; rfl

example : ∃ methods : List Str, ca ∈ methods ∧ methods.head? ≠ some ca ∧ methods.getLast? ≠ some ca := ⟨[[0x78], ca, [0x79]], by decide⟩

/-- an offer which is cut short ends the connection -/
theorem C74_truncated (be sendBE : Bool) (user host : Option Str) (methods : List Str) (hl : methods.length < 2 ^ 32) (h : ∀ m ∈ methods, m.length < 2 ^ 32)
    (part rest : List UInt8) (hp : (putOffer methods { be := be }).data = part ++ rest) (hr : rest ≠ []) : answer be sendBE user host part = none := by
  have he := emits_offer be methods hl h
  have hpp := parses_offer be methods hl h
  rw [data_of he] at hp
  rw [hp] at hpp
  unfold answer
  have : (getOffer { be := be, rest := part }).2.err = true := by
    rw [getOffer_eq _ rfl]
    exact Good.no_prefix good_offer (fun r => by rw [← getOffer_eq _ rfl]; exact hpp r) rfl hr
  simp only [this, if_true]

/-- After any handshakes, of any methods with anything presented, a client is known by the last account it presented with "ca"; one which never did is anonymous. -/
theorem C74_history (sr : Nat → Str) (f : Nat) (l : List (Bool × Hello)) (hs : ∀ x ∈ l, Spec.Handshake.Sendable f x.2) :
    (handshakes sr f {} (messages l)).closed = false ∧
    ((handshakes sr f {} (messages l)).cred.method, (handshakes sr f {} (messages l)).cred.account) =
      match lastAccount sr (l.map (·.2)) with
      | some u => (ca, u)
      | none => (anonymous, anonymous) :=
  history_from sr f l hs {} rfl (by decide)

/-- Who a client is, is what its last handshake says, as long as every handshake after one which presents an account presents one.
Missing: without this, see `C74_sticky`. -/
theorem C74_partial (sr : Nat → Str) (f : Nat) (l : List (Bool × Hello)) (hs : ∀ x ∈ l, Spec.Handshake.Sendable f x.2)
    (hk : ∀ p x q, l = p ++ x :: q → (account sr x.2).isSome = true → ∀ y ∈ q, (account sr y.2).isSome = true) :
    ((handshakes sr f {} (messages l)).cred.method, (handshakes sr f {} (messages l)).cred.account) = whoAfter sr (l.map (·.2)) := by
  rw [(C74_history sr f l hs).2]
  clear hs
  induction l with
  | nil => rfl
  | cons x l ih =>
    have hk' := ih fun p y q h => hk (x :: p) y q (by rw [h]; rfl)
    simp only [List.map_cons]
    rw [lastAccount_cons]
    cases l with
    | nil =>
      simp only [List.map_nil, whoAfter, whoIs]
      have : lastAccount sr [] = none := rfl
      rw [this]
      cases account sr x.2 <;> rfl
    | cons y l =>
      rw [show whoAfter sr (x.2 :: (y :: l).map (·.2)) = whoAfter sr ((y :: l).map (·.2)) from rfl, ← hk']
      cases hx : account sr x.2 with
      | none => simp
      | some u =>
        have hy := hk [] x (y :: l) rfl (by rw [hx]; rfl) y List.mem_cons_self
        simp only [List.map_cons]
        rw [lastAccount_cons]
        cases hl : lastAccount sr (l.map (·.2)) with
        | some w => rfl
        | none =>
          obtain ⟨w, hw⟩ := Option.isSome_iff_exists.mp hy
          rw [hw]; rfl

/-- an anonymous handshake followed by two, in either byte order, of clients which present an account: nothing is lost -/
example (sr : Nat → Str) : let l : List (Bool × Hello) := [(true, anonymous, .null), (false, ca, credentials (some [0x61]) none), (true, ca, credentials (some [0x62]) (some [0x63]))]
    (∀ x ∈ l, Spec.Handshake.Sendable 1 x.2) ∧
    (∀ p x q, l = p ++ x :: q → (account sr x.2).isSome = true → ∀ y ∈ q, (account sr y.2).isSome = true) ∧ whoAfter sr (l.map (·.2)) = (ca, [0x62]) := by
  have e (u h : Option Str) : account sr (ca, credentials u h) = some ((u.map inBuffer).getD nobody) := by
    unfold account; rw [if_pos rfl]; exact userOf_credentials sr u h
  have s (u h : Option Str) : Spec.Handshake.Sendable 1 (ca, credentials u h) :=
    ⟨show caName.length < 2 ^ 32 by decide, (caCred_ok u h).1, (by rw [(caCred_ok u h).2]; decide)⟩
  refine ⟨?_, ?_, ?_⟩
  · intro x hx
    simp only [List.mem_cons, List.not_mem_nil, or_false] at hx
    rcases hx with rfl | rfl | rfl
    · exact ⟨by decide, by simp only [AnyOK], by simp [nesting]⟩
    · exact s _ _
    · exact s _ _
  · intro p x q h _ y hy
    have hq : y = (false, ca, credentials (some [0x61]) none) ∨ y = (true, ca, credentials (some [0x62]) (some [0x63])) := by
      cases p with
      | nil => simp only [List.nil_append, List.cons.injEq] at h; rw [← h.2] at hy; simpa using hy
      | cons a p =>
        simp only [List.cons_append, List.cons.injEq] at h
        have : y ∈ p ++ x :: q := List.mem_append_right _ (List.mem_cons_of_mem _ hy)
        rw [← h.2] at this; simpa using this
    rcases hq with rfl | rfl <;> (dsimp only; rw [e]; rfl)
  · simp only [List.map_cons, List.map_nil, whoAfter, whoIs, e]; rfl

/-- whatever bytes a client sends, in any number of messages, it is anonymous or known by an account presented with "ca" -/
theorem C74_always (sr : Nat → Str) (f : Nat) (msgs : List (Bool × List UInt8)) :
    let c := (handshakes sr f {} msgs).cred
    (c.method = anonymous ∧ c.account = anonymous) ∨ c.method = ca := by
  have : ∀ c : Conn, ((c.cred.method = anonymous ∧ c.cred.account = anonymous) ∨ c.cred.method = ca) →
      ((handshakes sr f c msgs).cred.method = anonymous ∧ (handshakes sr f c msgs).cred.account = anonymous) ∨ (handshakes sr f c msgs).cred.method = ca := by
    induction msgs with
    | nil => intro c h; exact h
    | cons m l ih =>
      intro c h
      refine ih ((validate sr m.1 f c m.2).1) ?_
      unfold validate
      split
      · exact h
      · dsimp only
        split
        · exact h
        · have hne : c.cred.method ≠ [] := by
            rcases h with h | h
            · rw [h.1]; decide
            · rw [h]; decide
          have hw := (who_adopt sr c.cred hne (getReply f c.reg { be := m.1, rest := m.2 }).1.1 (getReply f c.reg { be := m.1, rest := m.2 }).1.2.1).1
          generalize (if (getReply f c.reg { be := m.1, rest := m.2 }).1.1 = caName then _ else none : Option Str) = o at hw
          cases o with
          | some u => exact .inr (congrArg Prod.fst hw)
          | none =>
            rcases h with h | h
            · exact .inl ⟨(congrArg Prod.fst hw).trans h.1, (congrArg Prod.snd hw).trans h.2⟩
            · exact .inr ((congrArg Prod.fst hw).trans h)
  exact this {} (.inl ⟨rfl, rfl⟩)

/-- the account presented is the text in the field "user" of the structure presented -/
theorem C74_user (sr : Nat → Str) (t : List FieldDesc) (cs : List Cell) (d : FieldDesc) (o : Nat) (b : Bool) (u : Str) (hd : t[0]? = some d)
    (hst : d.code = .Struct) (ho : d.mlookup.find? userKey = some o) (hu : cs[o]? = some (.mk b (.str u))) :
    account sr (ca, .mk t cs) = some u := by
  unfold account
  rw [if_pos rfl, userOf_eq, hd]
  simp only [if_pos hst, ho, Option.bind_some, datumAt, hu, Cell.data, textOf]

/-- Alice connects, then the client makes another handshake as anonymous, or with a method the server does not know and is refused: she is still "ca" and alice, while
nothing is presented any more -/
theorem C74_sticky (sr : Nat → Str) (m : Str) (hm : m = anonymous ∨ m = [0x78]) :
    let l : List (Bool × Hello) := [(true, ca, credentials (some [0x61]) none), (true, m, .null)]
    let c := (handshakes sr 1 {} (messages l)).cred
    whoAfter sr (l.map (·.2)) = (anonymous, anonymous) ∧ c.method = ca ∧ c.account = [0x61] ∧ c.raw = .null := by
  have ok := caCred_ok (some [0x61]) none
  have h1 : Spec.Handshake.Sendable 1 (ca, credentials (some [0x61]) none) := ⟨show caName.length < 2 ^ 32 by decide, ok.1, (by rw [ok.2]; decide)⟩
  have h2 : Spec.Handshake.Sendable 1 (m, Val.null) := by
    refine ⟨?_, by simp only [AnyOK], by simp [nesting]⟩
    rcases hm with h | h <;> subst h <;> decide
  have hne : m ≠ ca := by rcases hm with h | h <;> subst h <;> decide
  have h := (C74_history sr 1 [(true, ca, credentials (some [0x61]) none), (true, m, .null)] (by
    intro x hx
    rcases List.mem_cons.mp hx with rfl | hx
    · exact h1
    · rcases List.mem_cons.mp hx with rfl | hx
      · exact h2
      · exact absurd hx List.not_mem_nil)).2
  have e1 : account sr (m, Val.null) = none := by unfold account; rw [if_neg hne]
  have e2 : account sr (ca, credentials (some [0x61]) none) = some [0x61] := by
    unfold account; rw [if_pos rfl]; exact userOf_credentials sr (some [0x61]) none
  simp only [List.map_cons, List.map_nil, lastAccount_cons, e1, e2] at h
  refine ⟨?_, congrArg Prod.fst h, congrArg Prod.snd h, ?_⟩
  · simp only [List.map_cons, List.map_nil, whoAfter, whoIs, e1]
  · simp only [messages, List.map_cons, List.map_nil, handshakes, List.foldl_cons, List.foldl_nil]
    rw [validate_reply sr true 1 {} rfl (ca, credentials (some [0x61]) none) h1]
    rw [validate_reply sr true 1 _ rfl (m, Val.null) h2]
    simp only [received, adopt, if_neg (show ¬ m = caName from hne)]

end Pvxs.Props.Handshake
