import Verif.Lemmas.ReqParse
import Verif.Props.PVRequest
/-
C33 the text form of requests.
-/
namespace Pvxs.Props
open Pvxs Wire Spec PVR

theorem textOf_cstr (s : Str) : Wire.cstr s = textOf s := rfl

/-- which texts are accepted, and what parsing does with the others -/
theorem parse_cases {r : Req} (h : ReqOK r) (s : Str) :
    (∃ ts is, Reads (textOf s) ts ∧ Sentence ts is ∧ (∀ f ps p, Said.field f ∈ is → Parts f ps → p ∈ ps → NoDigit p) ∧
      ∃ r', r.parse s = .ok r' ∧ (∀ qs, Asks r' qs ↔ Asks r qs ∨ ∃ f ps, Said.field f ∈ is ∧ Parts f ps ∧ qs <+: ps) ∧
        ∀ k v, r'.options.find? k = some v ↔ LastOption is k v ∨ ((∀ v', Said.option k v' ∉ is) ∧ r.options.find? k = some v)) ∨
    (¬ (∃ ts is, Reads (textOf s) ts ∧ Sentence ts is ∧ ∀ f ps p, Said.field f ∈ is → Parts f ps → p ∈ ps → NoDigit p) ∧
      ∃ e, r.parse s = .throws e) := by
  have hsent : ∀ ts is, Reads (textOf s) ts → Sentence ts is → r.parse s = applyItems is r := by
    intro ts is h1 h2
    exact parse_complete h2 _ _ h1 (Nat.lt_succ_self _) r
  have hitems : ∀ ts is, Reads (textOf s) ts → Sentence ts is →
      ((∀ f, Said.field f ∈ is → ∀ p ∈ pieces [] f, nameOK p) ↔
        ∀ f ps p, Said.field f ∈ is → Parts f ps → p ∈ ps → NoDigit p) := by
    intro ts is h1 h2
    constructor
    · intro h f ps p hf hp hm
      have := parts_pieces hp
      subst this
      exact (nameOK_text h1 h2 hf p hm).mp (h f hf p hm)
    · intro h f hf p hm
      exact (nameOK_text h1 h2 hf p hm).mpr (h f _ p hf (pieces_parts f [] (by simp)) hm)
  rcases parse_total _ (Wire.cstr s) r h (Nat.lt_succ_self _) with ⟨e, he⟩ | ⟨r', hr'⟩
  · refine Or.inr ⟨?_, e, he⟩
    rintro ⟨ts, is, h1, h2, h3⟩
    rcases applyItems_cases is h with ⟨_, r1, e1, _⟩ | ⟨⟨f, hf, p, hp, hn⟩, _⟩
    · rw [← hsent ts is h1 h2] at e1
      have : r.parse s = .throws e := he
      rw [this] at e1; cases e1
    · exact hn (((hitems ts is h1 h2).mpr h3) f hf p hp)
  · obtain ⟨ts, is, h1, h2, h3⟩ := parse_sound _ _ _ _ hr'
    rw [textOf_cstr] at h1
    rcases applyItems_cases is h with ⟨ha, r1, e1, _, hp, ho⟩ | ⟨_, e, he⟩
    · rw [h3] at e1; cases e1
      refine Or.inl ⟨ts, is, h1, h2, (hitems ts is h1 h2).mp ha, r', hr', ?_, ho⟩
      intro qs
      show HasPath r'.fields qs ↔ HasPath r.fields qs ∨ _
      rw [hp]
      constructor
      · rintro (h | ⟨f, hf, hq⟩)
        · exact Or.inl h
        · exact Or.inr ⟨f, _, hf, pieces_parts f [] (by simp), hq⟩
      · rintro (h | ⟨f, ps, hf, hps, hq⟩)
        · exact Or.inl h
        · have := parts_pieces hps
          subst this
          exact Or.inr ⟨f, hf, hq⟩
    · rw [h3] at he; cases he

/-- Accepted are exactly the texts of the grammar whose field names have no component starting with a digit. -/
theorem C33_accepts (r : Req) (h : Reached r) (s : Str) :
    (∃ r', r.parse s = .ok r') ↔ ∃ ts is, Reads (textOf s) ts ∧ Sentence ts is ∧
      ∀ f ps p, Said.field f ∈ is → Parts f ps → p ∈ ps → NoDigit p := by
  rcases parse_cases (reached_ok h) s with ⟨ts, is, h1, h2, h3, r', h4, _⟩ | ⟨h1, e, h2⟩
  · exact ⟨fun _ => ⟨ts, is, h1, h2, h3⟩, fun _ => ⟨r', h4⟩⟩
  · constructor
    · rintro ⟨r', h⟩; rw [h2] at h; cases h
    · intro h; exact absurd h h1

/-- Every other text is refused with an exception: nothing else can happen, whatever the text. -/
theorem C33_refused (r : Req) (h : Reached r) (s : Str)
    (hn : ¬ ∃ ts is, Reads (textOf s) ts ∧ Sentence ts is ∧ ∀ f ps p, Said.field f ∈ is → Parts f ps → p ∈ ps → NoDigit p) :
    ∃ e, r.parse s = .throws e := by
  rcases parse_cases (reached_ok h) s with ⟨ts, is, h1, h2, h3, r', h4, _⟩ | ⟨h1, h2⟩
  · exact absurd ⟨ts, is, h1, h2, h3⟩ hn
  · exact h2

/-- What an accepted text means: the fields it names, and all those on the way to them, are added to those asked for before;
of several values of an option the last one counts, a value given before counts if the text has none. -/
theorem C33_result (r r' : Req) (h : Reached r) (s : Str) (e : r.parse s = .ok r') (ts : List Tok) (is : List Said)
    (h1 : Reads (textOf s) ts) (h2 : Sentence ts is) :
    (∀ qs, Asks r' qs ↔ Asks r qs ∨ ∃ f ps, Said.field f ∈ is ∧ Parts f ps ∧ qs <+: ps) ∧
    ∀ k v, r'.options.find? k = some v ↔ LastOption is k v ∨ ((∀ v', Said.option k v' ∉ is) ∧ r.options.find? k = some v) := by
  have e2 : r.parse s = applyItems is r := parse_complete h2 _ _ h1 (Nat.lt_succ_self _) r
  rw [e] at e2
  rcases applyItems_cases is (reached_ok h) with ⟨ha, r1, e1, _, hp, ho⟩ | ⟨_, e, he⟩
  · rw [← e2] at e1; cases e1
    refine ⟨fun qs => ?_, ho⟩
    show HasPath r'.fields qs ↔ HasPath r.fields qs ∨ _
    rw [hp]
    constructor
    · rintro (h | ⟨f, hf, hq⟩)
      · exact Or.inl h
      · exact Or.inr ⟨f, _, hf, pieces_parts f [] (by simp), hq⟩
    · rintro (h | ⟨f, ps, hf, hps, hq⟩)
      · exact Or.inl h
      · have := parts_pieces hps
        subst this
        exact Or.inr ⟨f, hf, hq⟩
  · rw [← e2] at he; cases he

/-- The builder call field(): accepted unless a component is no field name; adds the path. -/
theorem C33_field (r : Req) (h : Reached r) (f : Str) :
    (∃ ps r', Parts f ps ∧ r.field f = .ok r' ∧ r'.options = r.options ∧ ∀ qs, Asks r' qs ↔ Asks r qs ∨ qs <+: ps) ∨
    ∃ e, r.field f = .throws e := by
  rcases field_cases (reached_ok h) f with ⟨_, r', h1, _, h2, h3⟩ | ⟨_, h⟩
  · exact Or.inl ⟨_, r', pieces_parts f [] (by simp), h1, h2, h3⟩
  · exact Or.inr h

/-- What the request selects of a type (with C32_mask): exactly the named fields the type has, those on the way to them, and all
that lies below a field of which no part is named. -/
theorem C33_selects (r : Req) (h : Reached r) (hk : ∀ k v, (k, v) ∈ r.options → (0x2e : Byte) ∉ k) (t : List FieldDesc) (j : Nat) :
    Selects t (flat r.member) j ↔ ∃ ps qs i, ps ≠ [] ∧ Asks r ps ∧ qs ≠ [] ∧ joinDots qs = joinDots ps ∧ Descends t 0 qs i ∧
      (j = i ∨ ((∀ n, ¬ Asks r (ps ++ [n])) ∧ ∃ more, Descends t i more j)) := by
  have hok := reached_ok h
  have hf := full_of_distinct _ (member_distinct hok hk)
  constructor
  · rintro ⟨i, d, ⟨ps, q, qs, h1, h2, h3, h4, h5, h6, h7⟩, h8⟩
    obtain ⟨d', e, _, hm⟩ := (member_paths hok hf ps).2 q h2
    rw [h3] at e; cases e
    refine ⟨ps, qs, i, h1, (member_paths hok hf ps).1.mpr ⟨q, h2⟩, h5, h6, h7, ?_⟩
    rcases h8 with h8 | ⟨h8, h9⟩
    · exact Or.inl h8
    · exact Or.inr ⟨hm.mp h8, h9⟩
  · rintro ⟨ps, qs, i, h1, h2, h5, h6, h7, h8⟩
    obtain ⟨q, hq⟩ := (member_paths hok hf ps).1.mp h2
    obtain ⟨d, e, hs, hm⟩ := (member_paths hok hf ps).2 q hq
    refine ⟨i, d, ⟨ps, q, qs, h1, hq, e, hs, h5, h6, h7⟩, ?_⟩
    rcases h8 with h8 | ⟨h8, h9⟩
    · exact Or.inl h8
    · exact Or.inr ⟨hm.mpr h8, h9⟩

/-- A request which names no field asks for everything. -/
theorem C33_asksAll (r : Req) (h : Reached r) (hk : ∀ k v, (k, v) ∈ r.options → (0x2e : Byte) ∉ k) :
    AsksAll (flat r.member) ↔ ∀ n, ¬ Asks r [n] := by
  have hok := reached_ok h
  have hf := full_of_distinct _ (member_distinct hok hk)
  obtain ⟨q, hq⟩ := (member_paths hok hf []).1.mp (.here _)
  obtain ⟨d, e, hs, hm⟩ := (member_paths hok hf []).2 q hq
  constructor
  · intro ha
    exact hm.mp (ha d ⟨q, hq, e⟩).2
  · rintro ha d' ⟨q', hq', e'⟩
    obtain ⟨d2, e2, hs2, hm2⟩ := (member_paths hok hf []).2 q' hq'
    rw [e'] at e2; cases e2
    exact ⟨hs2, hm2.mpr ha⟩

/-! ### cases -/

def ascii (s : String) : Str := s.toList.map fun c => UInt8.ofNat c.toNat

def exParsed : Req :=
  { fields := [{ code := .Struct, name := [0x61], children := [{ code := .Struct, name := [0x62] }] }, { code := .Struct, name := [0x78] }],
    options := [([0x6b], [0x76])] }
theorem exParsed_text : ({} : Req).parse (ascii "field(a.b)record[k=v]x") = .ok exParsed := by rfl
example : Reached exParsed := .parse {} _ _ .new exParsed_text
example : Asks exParsed [[0x61], [0x62]] := 
  .down exParsed.fields { code := .Struct, name := [0x61], children := [{ code := .Struct, name := [0x62] }] } _ List.mem_cons_self
    (.down _ { code := .Struct, name := [0x62] } _ List.mem_cons_self (.here _))
example : ∃ ts is, Reads (textOf (ascii "field(a.b)record[k=v]x")) ts ∧ Sentence ts is ∧
    ∀ f ps p, Said.field f ∈ is → Parts f ps → p ∈ ps → NoDigit p :=
  (C33_accepts {} .new _).mp ⟨_, exParsed_text⟩
/-- the last value of an option counts -/
example : ({} : Req).parse (ascii "record[k=v]record[k=w,x=y]") =
    .ok { options := [([0x6b], [0x77]), ([0x78], [0x79])] } := by rfl

/-- Texts outside the documented grammar (documentation/client.rst:272-281: names separated by commas) which are accepted all the same. -/
theorem C33_lenient :
    (({} : Req).parse (ascii "field(a b)")).isOk = true ∧ (({} : Req).parse (ascii "field(a,,b,)")).isOk = true ∧
    (({} : Req).parse (ascii "record[a=b,]")).isOk = true ∧ ({} : Req).parse (ascii "field(.)") = .ok {} ∧
    ({} : Req).parse (ascii "field(a..b)") = ({} : Req).parse (ascii "field(a.b)") ∧
    (({} : Req).parse (ascii "a" ++ 0 :: ascii "(((")).isOk = true := by
  refine ⟨by decide, by decide, by decide, by rfl, ?_, by decide⟩
  have h : ∀ r, r = ({} : Req).parse (ascii "field(a.b)") → ({} : Req).parse (ascii "field(a..b)") = r := by
    intro r h
    have e : ({} : Req).parse (ascii "field(a.b)") =
      .ok { fields := [{ code := .Struct, name := [0x61], children := [{ code := .Struct, name := [0x62] }] }] } := by rfl
    rw [h, e]; rfl
  exact h _ rfl

/-- Texts of the documented grammar which are refused: options without a comma between them; a space at the end; names and values which happen to be `field` or `record`;
field names whose component starts with a digit. -/
theorem C33_strict :
    (({} : Req).parse (ascii "record[a=b c=d]")).isOk = false ∧
    (({} : Req).parse (ascii "field(a) ")).isOk = false ∧ (({} : Req).parse (ascii "record[process=field]")).isOk = false ∧
    (({} : Req).parse (ascii "field(record)")).isOk = false ∧ (({} : Req).parse (ascii "field(a.1b)")).isOk = false := by decide

end Pvxs.Props
