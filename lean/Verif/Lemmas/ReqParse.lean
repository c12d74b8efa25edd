import Verif.Spec.ReqParse
import Verif.Lemmas.SMap
import Verif.Lemmas.PVRequest
namespace Pvxs.PVR
open Wire Spec

/-! ### the lexer -/

theorem isName_iff (c : Byte) : isName c = true ↔ WordChar c := by
  simp only [isName, WordChar, Bool.or_eq_true, Bool.and_eq_true, decide_eq_true_eq, beq_iff_eq]
  constructor
  · rintro ((((h | h) | h) | h) | h) <;> simp [h]
  · rintro (h | h | h | h | h) <;> simp [h]

theorem punct_iff (c : Byte) (t : Tok) : punct c = some t ↔ Sign c t := by
  constructor
  · unfold punct
    intro h
    repeat' (split at h)
    all_goals first
      | (cases h; subst_vars; constructor)
      | cases h
  · intro h; cases h <;> rfl

theorem wordTok_iff (w : Str) (t : Tok) : wordTok w = t ↔ Word w t := by
  unfold wordTok
  constructor
  · rintro rfl
    split
    · rename_i h; subst h; exact .field
    · split
      · rename_i h; subst h; exact .record
      · rename_i h1 h2; exact .name w h1 h2
  · intro h
    cases h with
    | field => rfl
    | record => rfl
    | name _ h1 h2 => rw [if_neg h1, if_neg h2]

/-- one token at the start of a text -/
inductive Step : List Byte → Tok → List Byte → Prop
  | sign (n : Nat) (c : Byte) (t : Tok) (s : List Byte) (h : Sign c t) : Step (List.replicate n 0x20 ++ c :: s) t s
  | word (n : Nat) (w : Str) (t : Tok) (s : List Byte) (hne : w ≠ []) (hw : ∀ c ∈ w, WordChar c) (h : Word w t)
      (hend : ∀ c, s.head? = some c → ¬ WordChar c) : Step (List.replicate n 0x20 ++ (w ++ s)) t s

theorem space_not_word : ¬ WordChar 0x20 := by
  rintro (⟨h, _⟩ | ⟨h, _⟩ | ⟨h, _⟩ | h | h) <;> revert h <;> decide

theorem dropSpaces (n : Nat) (c : Byte) (s : List Byte) (h : c ≠ 0x20) :
    (List.replicate n 0x20 ++ c :: s).dropWhile (· == 0x20) = c :: s := by
  induction n with
  | zero => simp [h]
  | succ n ih => simp [List.replicate_succ, ih]

theorem spaces_split : ∀ (s : List Byte), ∃ n, s = List.replicate n 0x20 ++ s.dropWhile (· == 0x20)
  | [] => ⟨0, rfl⟩
  | c :: s => by
    by_cases h : c = 0x20
    · obtain ⟨n, hn⟩ := spaces_split s
      refine ⟨n + 1, ?_⟩
      rw [List.dropWhile_cons, if_pos (by simp [h]), List.replicate_succ, List.cons_append, ← hn, h]
    · exact ⟨0, by rw [List.dropWhile_cons, if_neg (by simp [h])]; rfl⟩

theorem takeWhile_word (w s : List Byte) (hw : ∀ c ∈ w, WordChar c) (hend : ∀ c, s.head? = some c → ¬ WordChar c) :
    (w ++ s).takeWhile isName = w := by
  induction w with
  | nil =>
    cases s with
    | nil => rfl
    | cons c s =>
      rw [List.nil_append, List.takeWhile_cons, if_neg]
      rw [isName_iff]; exact hend c rfl
  | cons a w ih =>
    rw [List.cons_append, List.takeWhile_cons, if_pos ((isName_iff a).mpr (hw a (by simp))),
      ih (fun c hc => hw c (by simp [hc]))]

theorem sign_not_word {c : Byte} {t : Tok} (h : Sign c t) : ¬ WordChar c ∧ c ≠ 0x20 := by
  cases h <;> exact ⟨fun h => absurd ((isName_iff _).mpr h) (by decide), by decide⟩

theorem lex_step {s s' : List Byte} {t : Tok} (h : Step s t s') : lex s = .ok (t, s') := by
  cases h with
  | sign n c t s h =>
    unfold lex
    rw [if_neg (by simp), dropSpaces n c s' (sign_not_word h).2]
    simp only [lexHere, (punct_iff c t).mpr h]
  | word n w t s hne hw h hend =>
    unfold lex
    rw [if_neg (by simp [hne])]
    obtain ⟨a, w', rfl⟩ : ∃ a w', w = a :: w' := by
      cases w with
      | nil => exact absurd rfl hne
      | cons a w' => exact ⟨a, w', rfl⟩
    have ha := hw a (by simp)
    have h20 : a ≠ 0x20 := by rintro rfl; exact space_not_word ha
    rw [List.cons_append, dropSpaces n a _ h20]
    have hp : punct a = none := by
      cases hp : punct a with
      | none => rfl
      | some t' => exact absurd ha (sign_not_word ((punct_iff a t').mp hp)).1
    have htw := takeWhile_word (a :: w') s' hw hend
    rw [List.cons_append] at htw
    simp only [lexHere, hp, htw]
    rw [if_neg (by simp), (wordTok_iff _ _).mpr h]
    simp

theorem takeWhile_end (s : List Byte) : ∀ c, (s.drop (s.takeWhile isName).length).head? = some c → ¬ WordChar c := by
  induction s with
  | nil => intro c h; cases h
  | cons a s ih =>
    intro c h
    rw [List.takeWhile_cons] at h
    by_cases ha : isName a = true
    · rw [if_pos ha] at h
      simp only [List.length_cons, List.drop_succ_cons] at h
      exact ih c h
    · rw [if_neg ha] at h
      simp only [List.length_nil, List.drop_zero, List.head?_cons, Option.some.injEq] at h
      subst h
      rw [← isName_iff]; exact ha

theorem mem_takeWhile_name {x : Byte} : ∀ {l : List Byte}, x ∈ l.takeWhile isName → isName x = true
  | a :: l, h => by
    rw [List.takeWhile_cons] at h
    by_cases ha : isName a = true
    · rw [if_pos ha] at h
      rcases List.mem_cons.mp h with rfl | h
      · exact ha
      · exact mem_takeWhile_name h
    · rw [if_neg ha] at h; cases h

/-- the lexer: the end, a token, or an exception -/
theorem lex_cases (s : List Byte) :
    (s = [] ∧ lex s = .ok (.eof, [])) ∨ (∃ t s', Step s t s' ∧ lex s = .ok (t, s')) ∨
    ((∀ t s', ¬ Step s t s') ∧ s ≠ [] ∧ ∃ e, lex s = .throws e) := by
  by_cases h0 : s = []
  · subst h0; exact Or.inl ⟨rfl, rfl⟩
  right
  obtain ⟨n, hn⟩ := spaces_split s
  have hl : lex s = lexHere (s.dropWhile (· == 0x20)) := by unfold lex; rw [if_neg h0]
  have hgive : ∀ t s', Step s t s' → (∃ t s', Step s t s' ∧ lex s = .ok (t, s')) ∨
      ((∀ t s', ¬ Step s t s') ∧ s ≠ [] ∧ ∃ e, lex s = .throws e) := fun t s' h => Or.inl ⟨t, s', h, lex_step h⟩
  have hthrow : ∀ e, lex s = .throws e → (∃ t s', Step s t s' ∧ lex s = .ok (t, s')) ∨
      ((∀ t s', ¬ Step s t s') ∧ s ≠ [] ∧ ∃ e, lex s = .throws e) := fun e h =>
    Or.inr ⟨fun t s' hs => (by rw [lex_step hs] at h; cases h), h0, e, h⟩
  generalize hd : s.dropWhile (· == 0x20) = u at hn hl
  cases u with
  | nil => exact hthrow _ hl
  | cons c cs =>
    cases hp : punct c with
    | some t => exact hgive t cs (by rw [hn]; exact .sign n c t cs ((punct_iff c t).mp hp))
    | none =>
      simp only [lexHere, hp] at hl
      by_cases hw : (c :: cs).takeWhile isName = []
      · rw [if_pos hw] at hl; exact hthrow _ hl
      · rw [if_neg hw] at hl
        have hsplit : c :: cs = (c :: cs).takeWhile isName ++ (c :: cs).drop ((c :: cs).takeWhile isName).length := by
          have h1 := List.takeWhile_append_dropWhile (p := isName) (l := c :: cs)
          have h2 := congrArg (List.drop ((c :: cs).takeWhile isName).length) h1
          rw [List.drop_left] at h2
          rw [← h2, h1]
        refine hgive (wordTok ((c :: cs).takeWhile isName)) ((c :: cs).drop ((c :: cs).takeWhile isName).length) ?_
        have := Step.word n ((c :: cs).takeWhile isName) _ ((c :: cs).drop ((c :: cs).takeWhile isName).length) hw
          (fun x hx => (isName_iff x).mp (mem_takeWhile_name hx)) ((wordTok_iff _ _).mp rfl) (takeWhile_end (c :: cs))
        rw [← hsplit, ← hn] at this
        exact this

theorem step_shorter {s s' : List Byte} {t : Tok} (h : Step s t s') : s'.length < s.length := by
  cases h with
  | sign n c t s h => simp; omega
  | word n w t s hne hw h hend =>
    have := List.length_pos_iff.mpr hne
    simp; omega

theorem step_not_eof {s s' : List Byte} (h : Step s .eof s') : False := by
  cases h with
  | sign n c t s h => cases h
  | word n w t s hne hw h hend => cases h

theorem reads_cons {s : List Byte} {t : Tok} {ts : List Tok} : Reads s (t :: ts) ↔ ∃ s', Step s t s' ∧ Reads s' ts := by
  constructor
  · intro h
    cases h with
    | sign n c t s' ts h hs => exact ⟨s', .sign n c t s' h, hs⟩
    | word n w t s' ts hne hw h hend hs => exact ⟨s', .word n w t s' hne hw h hend, hs⟩
  · rintro ⟨s', h, hs⟩
    cases h with
    | sign n c t s' h => exact .sign n c t s' ts h hs
    | word n w t s' hne hw h hend => exact .word n w t s' ts hne hw h hend hs

theorem reads_nil {s : List Byte} : Reads s [] ↔ s = [] := by
  constructor
  · intro h; cases h; rfl
  · rintro rfl; exact .nil

/-! ### the parser -/

/-- do what a list of items says -/
def applyItems : List Said → Req → Res Req
  | [], r => .ok r
  | .field f :: is, r => r.field f >>= fun r => applyItems is r
  | .option k v :: is, r => applyItems is (r.record k v)

theorem applyItems_append (a b : List Said) (r : Req) : applyItems (a ++ b) r = (applyItems a r >>= fun r => applyItems b r) := by
  induction a generalizing r with
  | nil => rfl
  | cons i a ih =>
    cases i with
    | field f =>
      simp only [List.cons_append, applyItems]
      cases r.field f with
      | ok r' => simp only [Res.bind_ok, ih]
      | throws e => rfl
      | ub => rfl
    | option k v => simp only [List.cons_append, applyItems, ih]

theorem parseFields_complete {fts : List Tok} {fs : List Str} (h : FieldList fts fs) : ∀ (t : Tok) (s : List Byte) (ts : List Tok)
    (n : Nat), (∀ w, t ≠ .name w) → t ≠ .comma → Reads s (fts ++ t :: ts) → s.length < n →
    ∃ s', Reads s' ts ∧ s'.length < s.length ∧
      ∀ r, parseFields n s r = (applyItems (fs.map .field) r >>= fun r => .ok (t, s', r)) := by
  induction h with
  | nil =>
    intro t s ts n hn hc hr hl
    obtain ⟨s', hs, hr⟩ := reads_cons.mp hr
    obtain ⟨n, rfl⟩ : ∃ m, n = m + 1 := ⟨n - 1, by omega⟩
    refine ⟨s', hr, step_shorter hs, fun r => ?_⟩
    simp only [parseFields, lex_step hs, Res.bind_ok, List.map_nil, applyItems]
  | comma fts fs _ ih =>
    intro t s ts n hn hc hr hl
    obtain ⟨s1, hs, hr⟩ := reads_cons.mp hr
    have := step_shorter hs
    obtain ⟨n, rfl⟩ : ∃ m, n = m + 1 := ⟨n - 1, by omega⟩
    obtain ⟨s', h1, h2, h3⟩ := ih t s1 ts n hn hc hr (by omega)
    refine ⟨s', h1, by omega, fun r => ?_⟩
    simp only [parseFields, lex_step hs, Res.bind_ok, h3]
  | name w fts fs _ ih =>
    intro t s ts n hn hc hr hl
    obtain ⟨s1, hs, hr⟩ := reads_cons.mp hr
    have := step_shorter hs
    obtain ⟨n, rfl⟩ : ∃ m, n = m + 1 := ⟨n - 1, by omega⟩
    obtain ⟨s', h1, h2, h3⟩ := ih t s1 ts n hn hc hr (by omega)
    refine ⟨s', h1, by omega, fun r => ?_⟩
    simp only [parseFields, lex_step hs, Res.bind_ok, List.map_cons, applyItems]
    cases r.field w with
    | ok r' => simp only [Res.bind_ok, h3]
    | throws e => rfl
    | ub => rfl

theorem parseFields_sound : ∀ (n : Nat) (s : List Byte) (r : Req) (t : Tok) (s' : List Byte) (r' : Req),
    parseFields n s r = .ok (t, s', r') → t ≠ .eof →
    ∃ fts fs, FieldList fts fs ∧ (∀ ts, Reads s' ts → Reads s (fts ++ t :: ts)) ∧ applyItems (fs.map .field) r = .ok r'
  | 0, _, _, _, _, _, h, _ => by cases h
  | n + 1, s, r, t, s', r', h, ht => by
    simp only [parseFields] at h
    rcases lex_cases s with ⟨h0, hl⟩ | ⟨t1, s1, hs, hl⟩ | ⟨_, _, e, hl⟩
    · rw [hl] at h
      simp only [Res.bind_ok] at h
      cases h; exact absurd rfl ht
    · rw [hl] at h
      simp only [Res.bind_ok] at h
      have fin : ∀ x, x = t1 → Res.ok (x, s1, r) = .ok (t, s', r') →
          ∃ fts fs, FieldList fts fs ∧ (∀ ts, Reads s' ts → Reads s (fts ++ t :: ts)) ∧ applyItems (fs.map .field) r = .ok r' := by
        rintro x rfl e
        cases e
        exact ⟨[], [], .nil, fun ts hr => reads_cons.mpr ⟨s', hs, hr⟩, rfl⟩
      cases t1 with
      | name w =>
        simp only at h
        cases hf : r.field w with
        | ok r1 =>
          rw [hf] at h
          simp only [Res.bind_ok] at h
          obtain ⟨fts, fs, h1, h2, h3⟩ := parseFields_sound n s1 r1 t s' r' h ht
          exact ⟨.name w :: fts, w :: fs, .name w fts fs h1, fun ts hr => reads_cons.mpr ⟨s1, hs, h2 ts hr⟩, by
            simp only [List.map_cons, applyItems, hf, Res.bind_ok, h3]⟩
        | throws e => rw [hf] at h; cases h
        | ub => rw [hf] at h; cases h
      | comma =>
        simp only at h
        obtain ⟨fts, fs, h1, h2, h3⟩ := parseFields_sound n s1 r t s' r' h ht
        exact ⟨.comma :: fts, fs, .comma fts fs h1, fun ts hr => reads_cons.mpr ⟨s1, hs, h2 ts hr⟩, h3⟩
      | lp => exact fin _ rfl h
      | rp => exact fin _ rfl h
      | lb => exact fin _ rfl h
      | rb => exact fin _ rfl h
      | eq => exact fin _ rfl h
      | field => exact fin _ rfl h
      | record => exact fin _ rfl h
      | eof => exact fin _ rfl h
    · rw [hl] at h; cases h

theorem parseValue_of {s s1 s2 : List Byte} {v : Str} (h1 : Step s .eq s1) (h2 : Step s1 (.name v) s2) : parseValue s = .ok (v, s2) := by
  simp only [parseValue, lex_step h1, lex_step h2, Res.bind_ok]

theorem parseValue_sound {s s2 : List Byte} {v : Str} (h : parseValue s = .ok (v, s2)) : ∃ s1, Step s .eq s1 ∧ Step s1 (.name v) s2 := by
  unfold parseValue at h
  rcases lex_cases s with ⟨h0, hl⟩ | ⟨t1, s1, hs, hl⟩ | ⟨_, _, e, hl⟩
  · rw [hl] at h
    simp only [Res.bind_ok] at h
    rcases lex_cases [] with ⟨_, hl⟩ | ⟨t2, s2, hs, hl⟩ | ⟨_, h1, _⟩
    · rw [hl] at h; cases h
    · have := step_shorter hs; simp at this
    · exact absurd rfl h1
  · rw [hl] at h
    simp only [Res.bind_ok] at h
    rcases lex_cases s1 with ⟨h0, hl⟩ | ⟨t2, s2', hs2, hl⟩ | ⟨_, _, e, hl⟩
    · rw [hl] at h
      simp only [Res.bind_ok] at h
      cases t1 <;> cases h
    · rw [hl] at h
      simp only [Res.bind_ok] at h
      cases t1 <;> cases t2 <;> first | cases h | skip
      exact ⟨s1, hs, hs2⟩
    · rw [hl] at h; cases h
  · rw [hl] at h; cases h

def recordAll : List (Str × Str) → Req → Req
  | [], r => r
  | p :: ps, r => recordAll ps (r.record p.1 p.2)

theorem applyItems_options (os : List (Str × Str)) (r : Req) :
    applyItems (os.map (fun p => .option p.1 p.2)) r = .ok (recordAll os r) := by
  induction os generalizing r with
  | nil => rfl
  | cons p os ih => simp only [List.map_cons, applyItems, recordAll, ih]

theorem parseOptions_complete {ots : List Tok} {os : List (Str × Str)} (h : OptionList ots os) : ∀ (s : List Byte) (ts : List Tok)
    (n : Nat), Reads s (ots ++ .rb :: ts) → s.length < n →
    ∃ t0 s0 s', Step s t0 s0 ∧ Reads s' ts ∧ s'.length < s.length ∧
      ∀ r, parseOptions n t0 s0 r = .ok (.rb, s', recordAll os r) := by
  induction h with
  | nil =>
    intro s ts n hr hl
    obtain ⟨s', hs, hr⟩ := reads_cons.mp hr
    obtain ⟨n, rfl⟩ : ∃ m, n = m + 1 := ⟨n - 1, by omega⟩
    exact ⟨_, s', s', hs, hr, step_shorter hs, fun r => rfl⟩
  | one k v =>
    intro s ts n hr hl
    obtain ⟨s1, h1, hr⟩ := reads_cons.mp hr
    obtain ⟨s2, h2, hr⟩ := reads_cons.mp hr
    obtain ⟨s3, h3, hr⟩ := reads_cons.mp hr
    obtain ⟨s4, h4, hr⟩ := reads_cons.mp hr
    have := step_shorter h1; have := step_shorter h2; have := step_shorter h3; have := step_shorter h4
    obtain ⟨n, rfl⟩ : ∃ m, n = m + 1 := ⟨n - 1, by omega⟩
    refine ⟨_, s1, s4, h1, hr, by omega, fun r => ?_⟩
    simp only [parseOptions, parseValue_of h2 h3, lex_step h4, Res.bind_ok]
    rw [if_neg (by decide)]
    rfl
  | more k v ots os _ ih =>
    intro s ts n hr hl
    obtain ⟨s1, h1, hr⟩ := reads_cons.mp hr
    obtain ⟨s2, h2, hr⟩ := reads_cons.mp hr
    obtain ⟨s3, h3, hr⟩ := reads_cons.mp hr
    obtain ⟨s4, h4, hr⟩ := reads_cons.mp hr
    have := step_shorter h1; have := step_shorter h2; have := step_shorter h3; have := step_shorter h4
    obtain ⟨n, rfl⟩ : ∃ m, n = m + 1 := ⟨n - 1, by omega⟩
    obtain ⟨t0, s0, s', h5, h6, h7, h8⟩ := ih s4 ts n hr (by omega)
    refine ⟨_, s1, s', h1, h6, by omega, fun r => ?_⟩
    simp only [parseOptions, parseValue_of h2 h3, lex_step h4, Res.bind_ok, ↓reduceIte, lex_step h5, h8, recordAll]

theorem parseOptions_sound : ∀ (n : Nat) (s0 : List Byte) (t0 : Tok) (s : List Byte) (r : Req) (s' : List Byte) (r' : Req),
    Step s0 t0 s → parseOptions n t0 s r = .ok (.rb, s', r') →
    ∃ ots os, OptionList ots os ∧ (∀ ts, Reads s' ts → Reads s0 (ots ++ .rb :: ts)) ∧ recordAll os r = r'
  | 0, _, _, _, _, _, _, _, h => by cases h
  | n + 1, s0, t0, s, r, s', r', hs, h => by
    have fin : ∀ x, x = t0 → Res.ok (x, s, r) = .ok (.rb, s', r') →
        ∃ ots os, OptionList ots os ∧ (∀ ts, Reads s' ts → Reads s0 (ots ++ .rb :: ts)) ∧ recordAll os r = r' := by
      rintro x rfl e
      cases e
      exact ⟨[], [], .nil, fun ts hr => reads_cons.mpr ⟨_, hs, hr⟩, rfl⟩
    cases t0 with
    | name k =>
      simp only [parseOptions] at h
      cases hv : parseValue s with
      | throws e => rw [hv] at h; cases h
      | ub => rw [hv] at h; cases h
      | ok p =>
        obtain ⟨v, s3⟩ := p
        obtain ⟨s2, h2, h3⟩ := parseValue_sound hv
        rw [hv] at h
        simp only [Res.bind_ok] at h
        rcases lex_cases s3 with ⟨h0, hl⟩ | ⟨t4, s4, h4, hl⟩ | ⟨_, _, e, hl⟩
        · rw [hl] at h
          simp only [Res.bind_ok] at h
          cases h
        · rw [hl] at h
          simp only [Res.bind_ok] at h
          by_cases hc : t4 = .comma
          · rw [if_pos hc] at h
            subst hc
            rcases lex_cases s4 with ⟨h0, hl5⟩ | ⟨t5, s5, h5, hl5⟩ | ⟨_, _, e, hl5⟩
            · rw [hl5] at h
              simp only [Res.bind_ok] at h
              cases n <;> cases h
            · rw [hl5] at h
              simp only [Res.bind_ok] at h
              obtain ⟨ots, os, a, b, c⟩ := parseOptions_sound n s4 t5 s5 _ s' r' h5 h
              refine ⟨_, _, .more k v ots os a, fun ts hr => ?_, c⟩
              exact reads_cons.mpr ⟨s, hs, reads_cons.mpr ⟨s2, h2, reads_cons.mpr ⟨s3, h3, reads_cons.mpr ⟨s4, h4, b ts hr⟩⟩⟩⟩
            · rw [hl5] at h; cases h
          · rw [if_neg hc] at h
            cases h
            exact ⟨_, _, .one k v, fun ts hr =>
              reads_cons.mpr ⟨s, hs, reads_cons.mpr ⟨s2, h2, reads_cons.mpr ⟨s3, h3, reads_cons.mpr ⟨s', h4, hr⟩⟩⟩⟩, rfl⟩
        · rw [hl] at h; cases h
    | comma => exact fin _ rfl h
    | lp => exact fin _ rfl h
    | rp => exact fin _ rfl h
    | lb => exact fin _ rfl h
    | rb => exact fin _ rfl h
    | eq => exact fin _ rfl h
    | field => exact fin _ rfl h
    | record => exact fin _ rfl h
    | eof => exact fin _ rfl h

theorem parse_complete {ts : List Tok} {is : List Said} (h : Sentence ts is) : ∀ (s : List Byte) (n : Nat), Reads s ts → s.length < n →
    ∀ r, parse n s r = applyItems is r := by
  induction h with
  | nil =>
    intro s n hr hl r
    rw [reads_nil] at hr
    subst hr
    obtain ⟨n, rfl⟩ : ∃ m, n = m + 1 := ⟨n - 1, by omega⟩
    rfl
  | name w ts is _ ih =>
    intro s n hr hl r
    obtain ⟨s1, h1, hr⟩ := reads_cons.mp hr
    have := step_shorter h1
    obtain ⟨n, rfl⟩ : ∃ m, n = m + 1 := ⟨n - 1, by omega⟩
    simp only [parse, lex_step h1, Res.bind_ok, applyItems]
    cases r.field w with
    | ok r' => simp only [Res.bind_ok, ih s1 n hr (by omega)]
    | throws e => rfl
    | ub => rfl
  | field fts fs ts is hf _ ih =>
    intro s n hr hl r
    obtain ⟨s1, h1, hr⟩ := reads_cons.mp hr
    obtain ⟨s2, h2, hr⟩ := reads_cons.mp hr
    have := step_shorter h1; have := step_shorter h2
    obtain ⟨n, rfl⟩ : ∃ m, n = m + 1 := ⟨n - 1, by omega⟩
    obtain ⟨s3, hr3, hl3, h3⟩ := parseFields_complete hf .rp s2 ts n (by intro w h; cases h) (by decide) hr (by omega)
    simp only [parse, lex_step h1, Res.bind_ok, parseFieldEnt, lex_step h2, ne_eq, not_true_eq_false, ↓reduceIte, h3, applyItems_append]
    cases applyItems (fs.map .field) r with
    | ok r' => simp only [Res.bind_ok, not_true_eq_false, ↓reduceIte, ih s3 n hr3 (by omega)]
    | throws e => rfl
    | ub => rfl
  | record ots os ts is ho _ ih =>
    intro s n hr hl r
    obtain ⟨s1, h1, hr⟩ := reads_cons.mp hr
    obtain ⟨s2, h2, hr⟩ := reads_cons.mp hr
    have := step_shorter h1; have := step_shorter h2
    obtain ⟨n, rfl⟩ : ∃ m, n = m + 1 := ⟨n - 1, by omega⟩
    obtain ⟨t0, s0, s3, h0, hr3, hl3, h3⟩ := parseOptions_complete ho s2 ts n hr (by omega)
    simp only [parse, lex_step h1, Res.bind_ok, parseRecordEnt, lex_step h2, lex_step h0, ne_eq, not_true_eq_false, ↓reduceIte, h3,
      applyItems_append, applyItems_options, ih s3 n hr3 (by omega)]

theorem parse_sound : ∀ (n : Nat) (s : List Byte) (r r' : Req), parse n s r = .ok r' →
    ∃ ts is, Reads s ts ∧ Sentence ts is ∧ applyItems is r = .ok r'
  | 0, _, _, _, h => by cases h
  | n + 1, s, r, r', h => by
    simp only [parse] at h
    rcases lex_cases s with ⟨h0, hl⟩ | ⟨t1, s1, hs, hl⟩ | ⟨_, _, e, hl⟩
    · rw [hl] at h
      simp only [Res.bind_ok] at h
      cases h
      exact ⟨[], [], reads_nil.mpr h0, .nil, rfl⟩
    · rw [hl] at h
      simp only [Res.bind_ok] at h
      cases t1 with
      | eof => exact absurd hs step_not_eof
      | name w =>
        simp only at h
        cases hf : r.field w with
        | throws e => rw [hf] at h; cases h
        | ub => rw [hf] at h; cases h
        | ok r1 =>
          rw [hf] at h
          simp only [Res.bind_ok] at h
          obtain ⟨ts, is, a, b, c⟩ := parse_sound n s1 r1 r' h
          exact ⟨_, _, reads_cons.mpr ⟨s1, hs, a⟩, .name w ts is b, by simp only [applyItems, hf, Res.bind_ok, c]⟩
      | field =>
        simp only at h
        cases he : parseFieldEnt n s1 r with
        | throws e => rw [he] at h; cases h
        | ub => rw [he] at h; cases h
        | ok p =>
          obtain ⟨s4, r4⟩ := p
          rw [he] at h
          simp only [Res.bind_ok] at h
          obtain ⟨ts, is, a, b, c⟩ := parse_sound n s4 r4 r' h
          unfold parseFieldEnt at he
          rcases lex_cases s1 with ⟨h0, hl2⟩ | ⟨t2, s2, hs2, hl2⟩ | ⟨_, _, e, hl2⟩
          · rw [hl2] at he; cases he
          · rw [hl2] at he
            simp only [Res.bind_ok] at he
            split at he
            · cases he
            · rename_i hlp
              have hlp : t2 = .lp := Classical.byContradiction hlp
              subst hlp
              cases hp : parseFields n s2 r with
              | throws e => rw [hp] at he; cases he
              | ub => rw [hp] at he; cases he
              | ok q =>
                obtain ⟨t3, s3, r3⟩ := q
                rw [hp] at he
                simp only [Res.bind_ok] at he
                split at he
                · cases he
                · rename_i hrp
                  have hrp : t3 = .rp := Classical.byContradiction hrp
                  subst hrp
                  cases he
                  obtain ⟨fts, fs, x, y, z⟩ := parseFields_sound n s2 r .rp s4 r4 hp (by decide)
                  exact ⟨_, _, reads_cons.mpr ⟨s1, hs, reads_cons.mpr ⟨s2, hs2, y ts a⟩⟩, .field fts fs ts is x b, by
                    rw [applyItems_append, z, Res.bind_ok, c]⟩
          · rw [hl2] at he; cases he
      | record =>
        simp only at h
        cases he : parseRecordEnt n s1 r with
        | throws e => rw [he] at h; cases h
        | ub => rw [he] at h; cases h
        | ok p =>
          obtain ⟨s4, r4⟩ := p
          rw [he] at h
          simp only [Res.bind_ok] at h
          obtain ⟨ts, is, a, b, c⟩ := parse_sound n s4 r4 r' h
          unfold parseRecordEnt at he
          rcases lex_cases s1 with ⟨h0, hl2⟩ | ⟨t2, s2, hs2, hl2⟩ | ⟨_, _, e, hl2⟩
          · rw [hl2] at he; cases he
          · rw [hl2] at he
            simp only [Res.bind_ok] at he
            split at he
            · cases he
            · rename_i hlp
              have hlp : t2 = .lb := Classical.byContradiction hlp
              subst hlp
              rcases lex_cases s2 with ⟨h0, hl3⟩ | ⟨t0, s0, hs0, hl3⟩ | ⟨_, _, e, hl3⟩
              · rw [hl3] at he
                simp only [Res.bind_ok] at he
                cases n <;> cases he
              · rw [hl3] at he
                simp only [Res.bind_ok] at he
                cases hp : parseOptions n t0 s0 r with
                | throws e => rw [hp] at he; cases he
                | ub => rw [hp] at he; cases he
                | ok q =>
                  obtain ⟨t3, s3, r3⟩ := q
                  rw [hp] at he
                  simp only [Res.bind_ok] at he
                  split at he
                  · cases he
                  · rename_i hrp
                    have hrp : t3 = .rb := Classical.byContradiction hrp
                    subst hrp
                    cases he
                    obtain ⟨ots, os, x, y, z⟩ := parseOptions_sound n s2 t0 s0 r s4 r4 hs0 hp
                    exact ⟨_, _, reads_cons.mpr ⟨s1, hs, reads_cons.mpr ⟨s2, hs2, y ts a⟩⟩, .record ots os ts is x b, by
                      rw [applyItems_append, applyItems_options, z, Res.bind_ok, c]⟩
              · rw [hl3] at he; cases he
          · rw [hl2] at he; cases he
      | comma => cases h
      | lp => cases h
      | rp => cases h
      | lb => cases h
      | rb => cases h
      | eq => cases h
    · rw [hl] at h; cases h

/-! ### the tree of fields -/

/-- trees which `_field` builds -/
inductive TreeOK : List Member → Prop
  | mk (ms : List Member) (nodup : (ms.map Member.name).Nodup)
      (node : ∀ m ∈ ms, m.code = .Struct ∧ m.id = [] ∧ (0x2e : Byte) ∉ m.name ∧ m.name ≠ [] ∧
        Member.validate { code := .Struct, name := m.name } = .ok ())
      (kids : ∀ m ∈ ms, TreeOK m.children) : TreeOK ms

/-- the test of a name by Member's constructor -/
def nameOK (p : Str) : Prop := Member.validate { code := .Struct, name := p } = .ok ()

theorem validate_cases (p : Str) : nameOK p ∨ ∃ e, Member.validate { code := .Struct, name := p } = .throws e := by
  unfold nameOK Member.validate ifNamed nameValidate
  dsimp only
  split
  · split
    · exact Or.inr ⟨_, rfl⟩
    · split
      · exact Or.inl rfl
      · exact Or.inr ⟨_, rfl⟩
  · exact Or.inl rfl

theorem inChild_ok {p : Str} {k : List Member → Res (List Member)} : ∀ {ms : List Member}, TreeOK ms → nameOK p → (0x2e : Byte) ∉ p → p ≠ [] →
    (∀ ch, TreeOK ch → ∃ ch', k ch = .ok ch' ∧ TreeOK ch' ∧ ∀ qs, HasPath ch' qs ↔ HasPath ch qs ∨ qs <+: ps) →
    ∃ ms', inChild p k ms = .ok ms' ∧ TreeOK ms' ∧ (∀ n ∈ ms'.map Member.name, n ∈ ms.map Member.name ∨ n = p) ∧
      ∀ qs, HasPath ms' qs ↔ HasPath ms qs ∨ qs <+: (p :: ps)
  | [], _, hn, hd, hne, hk => by
    obtain ⟨ch', h1, h2, h3⟩ := hk [] (.mk [] (by simp) (by simp) (by simp))
    refine ⟨[{ code := .Struct, name := p, children := ch' }], ?_, ?_, ?_, ?_⟩
    · unfold nameOK at hn
      simp only [inChild, hn, Res.bind_ok, h1]
    · refine .mk _ (by simp) ?_ ?_
      · intro m hm
        simp only [List.mem_singleton] at hm; subst hm
        exact ⟨rfl, rfl, hd, hne, hn⟩
      · intro m hm
        simp only [List.mem_singleton] at hm; subst hm
        exact h2
    · intro n hn; simp at hn; exact Or.inr hn
    · intro qs
      constructor
      · intro h
        cases h with
        | here => exact Or.inl (.here _)
        | down _ m qs hm h =>
          simp only [List.mem_singleton] at hm; subst hm
          rcases (h3 qs).mp h with h | h
          · cases h with
            | here => exact Or.inr (by simp)
            | down _ m' _ hm' _ => cases hm'
          · exact Or.inr (by simpa using h)
      · rintro (h | h)
        · cases h with
          | here => exact .here _
          | down _ m' _ hm' _ => cases hm'
        · cases qs with
          | nil => exact .here _
          | cons q qs =>
            obtain ⟨rfl, hpre⟩ : q = p ∧ qs <+: ps := by simpa using h
            exact .down _ _ qs (List.mem_singleton.mpr rfl) ((h3 qs).mpr (Or.inr hpre))
  | m :: ms, ht, hn, hd, hne, hk => by
    cases ht with
    | mk _ nodup node kids =>
      simp only [List.map_cons, List.nodup_cons] at nodup
      by_cases hm : m.name = p
      · obtain ⟨ch', h1, h2, h3⟩ := hk m.children (kids m (by simp))
        refine ⟨{ m with children := ch' } :: ms, ?_, ?_, ?_, ?_⟩
        · simp only [inChild, hm, ↓reduceIte, h1, Res.bind_ok]
        · refine .mk _ (by simpa using nodup) ?_ ?_
          · intro x hx
            rcases List.mem_cons.mp hx with rfl | hx
            · exact node m (by simp)
            · exact node x (by simp [hx])
          · intro x hx
            rcases List.mem_cons.mp hx with rfl | hx
            · exact h2
            · exact kids x (by simp [hx])
        · intro n hn; exact Or.inl (by simpa using hn)
        · intro qs
          constructor
          · intro h
            cases h with
            | here => exact Or.inl (.here _)
            | down _ x qs hx h =>
              rcases List.mem_cons.mp hx with rfl | hx
              · rcases (h3 qs).mp h with h | h
                · exact Or.inl (.down _ m qs (by simp) h)
                · refine Or.inr ?_
                  show m.name :: qs <+: p :: ps
                  rw [hm]; simpa using h
              · exact Or.inl (.down _ x qs (by simp [hx]) h)
          · rintro (h | h)
            · cases h with
              | here => exact .here _
              | down _ x qs hx h =>
                rcases List.mem_cons.mp hx with rfl | hx
                · exact HasPath.down _ { x with children := ch' } qs (by simp) ((h3 qs).mpr (Or.inl h))
                · exact .down _ x qs (by simp [hx]) h
            · cases qs with
              | nil => exact .here _
              | cons q qs =>
                obtain ⟨rfl, hpre⟩ : q = p ∧ qs <+: ps := by simpa using h
                rw [← hm]
                exact HasPath.down _ { m with children := ch' } qs (by simp) ((h3 qs).mpr (Or.inr hpre))
      · have ht' : TreeOK ms := .mk _ nodup.2 (fun x hx => node x (by simp [hx])) (fun x hx => kids x (by simp [hx]))
        obtain ⟨ms', h1, h2, h3, h4⟩ := inChild_ok ht' hn hd hne hk
        refine ⟨m :: ms', ?_, ?_, ?_, ?_⟩
        · simp only [inChild, hm, ↓reduceIte, h1, Res.bind_ok]
        · cases h2 with
          | mk _ nodup' node' kids' =>
            refine .mk _ ?_ ?_ ?_
            · simp only [List.map_cons, List.nodup_cons]
              refine ⟨fun hx => ?_, nodup'⟩
              rcases h3 _ hx with h | h
              · exact nodup.1 h
              · exact hm h
            · intro x hx
              rcases List.mem_cons.mp hx with rfl | hx
              · exact node x (by simp)
              · exact node' x hx
            · intro x hx
              rcases List.mem_cons.mp hx with rfl | hx
              · exact kids x (by simp)
              · exact kids' x hx
        · intro n hn
          simp only [List.map_cons, List.mem_cons] at hn ⊢
          rcases hn with h | h
          · exact Or.inl (Or.inl h)
          · rcases h3 n h with h | h
            · exact Or.inl (Or.inr h)
            · exact Or.inr h
        · intro qs
          have hcons : ∀ l : List Member, HasPath (m :: l) qs ↔ (∃ qs', qs = m.name :: qs' ∧ HasPath m.children qs') ∨ HasPath l qs := by
            intro l
            constructor
            · intro h
              cases h with
              | here => exact Or.inr (.here _)
              | down _ x qs hx h =>
                rcases List.mem_cons.mp hx with rfl | hx
                · exact Or.inl ⟨qs, rfl, h⟩
                · exact Or.inr (.down _ x qs hx h)
            · rintro (⟨qs', rfl, h⟩ | h)
              · exact .down _ m qs' (by simp) h
              · cases h with
                | here => exact .here _
                | down _ x qs hx h => exact .down _ x qs (by simp [hx]) h
          rw [hcons, hcons, h4, or_assoc]

theorem addPath_ok : ∀ (ps : List Str) {ms : List Member}, TreeOK ms → (∀ p ∈ ps, nameOK p ∧ (0x2e : Byte) ∉ p ∧ p ≠ []) →
    ∃ ms', addPath ps ms = .ok ms' ∧ TreeOK ms' ∧ ∀ qs, HasPath ms' qs ↔ HasPath ms qs ∨ qs <+: ps
  | [], ms, ht, _ => ⟨ms, rfl, ht, fun qs => ⟨Or.inl, fun h => h.elim id (fun h => by
      have : qs = [] := by simpa using h
      rw [this]; exact .here _)⟩⟩
  | p :: ps, ms, ht, hp => by
    obtain ⟨h1, h2, h3⟩ := hp p (by simp)
    obtain ⟨ms', a, b, _, c⟩ := inChild_ok (k := addPath ps) (ps := ps) ht h1 h2 h3
      (fun ch hch => addPath_ok ps hch (fun q hq => hp q (by simp [hq])))
    exact ⟨ms', a, b, c⟩

theorem inChild_throws {p : Str} {k : List Member → Res (List Member)} : ∀ {ms : List Member}, TreeOK ms →
    (¬ nameOK p ∨ ∀ ch, TreeOK ch → ∃ e, k ch = .throws e) → ∃ e, inChild p k ms = .throws e
  | [], _, h => by
    simp only [inChild]
    rcases validate_cases p with hv | ⟨e, hv⟩
    · obtain ⟨e, he⟩ := (h.resolve_left (fun hn => hn hv)) [] (.mk [] (by simp) (by simp) (by simp))
      unfold nameOK at hv
      rw [hv, Res.bind_ok, he]
      exact ⟨e, rfl⟩
    · rw [hv]; exact ⟨e, rfl⟩
  | m :: ms, ht, h => by
    cases ht with
    | mk _ nodup node kids =>
      simp only [inChild]
      by_cases hm : m.name = p
      · rw [if_pos hm]
        have : nameOK p := by rw [← hm]; exact (node m (by simp)).2.2.2.2
        obtain ⟨e, he⟩ := (h.resolve_left (fun hn => hn this)) m.children (kids m (by simp))
        rw [he]; exact ⟨e, rfl⟩
      · rw [if_neg hm]
        simp only [List.map_cons, List.nodup_cons] at nodup
        obtain ⟨e, he⟩ := inChild_throws (ms := ms) (.mk _ nodup.2 (fun x hx => node x (by simp [hx])) (fun x hx => kids x (by simp [hx]))) h
        rw [he]; exact ⟨e, rfl⟩

theorem addPath_throws : ∀ (ps : List Str) {ms : List Member}, TreeOK ms → (∃ p ∈ ps, ¬ nameOK p) → ∃ e, addPath ps ms = .throws e
  | [], _, _, h => by obtain ⟨p, hp, _⟩ := h; cases hp
  | p :: ps, ms, ht, h => by
    refine inChild_throws ht ?_
    by_cases hp : nameOK p
    · obtain ⟨q, hq, hb⟩ := h
      rcases List.mem_cons.mp hq with rfl | hq
      · exact absurd hp hb
      · exact Or.inr fun ch hch => addPath_throws ps hch ⟨q, hq, hb⟩
    · exact Or.inl hp

/-! ### dotted names -/

theorem pieces_parts : ∀ (s cur : Str), (0x2e : Byte) ∉ cur → Parts (cur ++ s) (pieces cur s)
  | [], cur, h => by
    simp only [pieces, List.append_nil]
    split
    · rename_i hc; subst hc; exact .nil
    · rename_i hc; exact .last cur hc h
  | c :: s, cur, h => by
    simp only [pieces]
    split
    · rename_i hc; subst hc
      split
      · rename_i hcur; subst hcur; exact .dot s _ (pieces_parts s [] (by simp))
      · rename_i hcur; exact .more cur s _ hcur h (pieces_parts s [] (by simp))
    · rename_i hc
      have := pieces_parts s (cur ++ [c]) (by simp [h]; exact fun e => hc e.symm)
      simpa using this

theorem pieces_word : ∀ (w cur s : Str), (0x2e : Byte) ∉ w →
    pieces cur (w ++ s) = pieces (cur ++ w) s
  | [], cur, s, _ => by simp
  | c :: w, cur, s, h => by
    simp only [List.mem_cons, not_or] at h
    have hc : ¬ c = 0x2e := fun e => h.1 e.symm
    rw [List.cons_append, pieces, if_neg hc, pieces_word w _ s h.2]
    simp

theorem parts_pieces {s : Str} {ps : List Str} (h : Parts s ps) : ps = pieces [] s := by
  induction h with
  | nil => rfl
  | dot s ps _ ih => rw [ih]; simp [pieces]
  | last w hne hw =>
    have := pieces_word w [] [] hw
    rw [List.append_nil] at this
    rw [this]; simp [pieces, hne]
  | more w s ps hne hw _ ih =>
    rw [pieces_word w [] _ hw, ih]
    simp [pieces, hne]

theorem parts_mem {s : Str} {ps : List Str} (h : Parts s ps) : ∀ p ∈ ps, p ≠ [] ∧ (0x2e : Byte) ∉ p ∧ ∀ c ∈ p, c ∈ s := by
  induction h with
  | nil => intro p hp; cases hp
  | dot s ps _ ih => intro p hp; obtain ⟨a, b, c⟩ := ih p hp; exact ⟨a, b, fun x hx => List.mem_cons_of_mem _ (c x hx)⟩
  | last w hne hw =>
    intro p hp
    simp only [List.mem_singleton] at hp; subst hp
    exact ⟨hne, hw, fun c hc => hc⟩
  | more w s ps hne hw _ ih =>
    intro p hp
    rcases List.mem_cons.mp hp with rfl | hp
    · exact ⟨hne, hw, fun c hc => by simp [hc]⟩
    · obtain ⟨a, b, c⟩ := ih p hp
      exact ⟨a, b, fun x hx => by simp [c x hx]⟩

theorem nameOK_iff {p : Str} (hne : p ≠ []) (hw : ∀ c ∈ p, WordChar c) (hd : (0x2e : Byte) ∉ p) : nameOK p ↔ NoDigit p := by
  have hz : ∀ c ∈ p, c ≠ 0 := by
    rintro c hc rfl
    exact absurd ((isName_iff 0).mpr (hw 0 hc)) (by decide)
  have hcs : cstr p = p := by
    unfold cstr
    clear hne hw hd
    induction p with
    | nil => rfl
    | cons a p ih =>
      rw [List.takeWhile_cons, if_pos (by simpa using hz a (by simp)), ih (fun c hc => hz c (by simp [hc]))]
  have hval : nameOK p ↔ (p.zipIdx.all (fun (c, i) =>
      (decide (0x30 ≤ c) && decide (c ≤ 0x39) && decide (0 < i)) ||
      (decide (0x61 ≤ c) && decide (c ≤ 0x7a)) || (decide (0x41 ≤ c) && decide (c ≤ 0x5a)) || c == 0x5f)) = true := by
    unfold nameOK Member.validate ifNamed nameValidate
    dsimp only
    rw [if_pos hne, hcs, if_neg hne]
    split
    · rename_i h; simp only [h, iff_true]; rfl
    · rename_i h; simp only [h]
      constructor
      · intro h; cases h
      · intro h; cases h
  rw [hval, List.all_eq_true]
  constructor
  · intro h c hc hdig
    have := h (c, 0) (by
      rw [List.mem_zipIdx_iff_getElem?]
      rw [List.head?_eq_getElem?] at hc; exact hc)
    simp only [Nat.lt_irrefl, decide_false, Bool.and_false, Bool.false_or, Bool.or_eq_true, Bool.and_eq_true, decide_eq_true_eq, beq_iff_eq] at this
    obtain ⟨h1, h2⟩ := hdig
    rw [UInt8.le_iff_toNat_le] at h1 h2
    simp only [UInt8.le_iff_toNat_le] at this
    rcases this with (⟨h, _⟩ | ⟨h, _⟩) | h
    · have : (0x61 : UInt8).toNat = 97 := rfl
      have : (0x39 : UInt8).toNat = 57 := rfl
      omega
    · have : (0x41 : UInt8).toNat = 65 := rfl
      have : (0x39 : UInt8).toNat = 57 := rfl
      omega
    · subst h; revert h2; decide
  · rintro h ⟨c, i⟩ hx
    rw [List.mem_zipIdx_iff_getElem?] at hx
    have hmem : c ∈ p := List.mem_of_getElem? hx
    simp only [Bool.or_eq_true, Bool.and_eq_true, decide_eq_true_eq, beq_iff_eq]
    rcases hw c hmem with h1 | h1 | h1 | h1 | h1
    · exact Or.inl (Or.inl (Or.inr h1))
    · exact Or.inl (Or.inr h1)
    · refine Or.inl (Or.inl (Or.inl ⟨h1, ?_⟩))
      by_cases hi : i = 0
      · subst hi
        exact absurd h1 (h c (by rw [List.head?_eq_getElem?]; exact hx))
      · omega
    · subst h1; exact absurd hmem hd
    · exact Or.inr h1

/-! ### whole requests -/

structure ReqOK (r : Req) : Prop where
  tree : TreeOK r.fields
  opts : SMap.Sorted r.options

theorem field_cases {r : Req} (h : ReqOK r) (f : Str) :
    ((∀ p ∈ pieces [] f, nameOK p) ∧ ∃ r', r.field f = .ok r' ∧ ReqOK r' ∧ r'.options = r.options ∧
      ∀ qs, HasPath r'.fields qs ↔ HasPath r.fields qs ∨ qs <+: pieces [] f) ∨
    ((∃ p ∈ pieces [] f, ¬ nameOK p) ∧ ∃ e, r.field f = .throws e) := by
  have hp := parts_mem (pieces_parts f [] (by simp))
  by_cases hall : ∀ p ∈ pieces [] f, nameOK p
  · obtain ⟨ms', h1, h2, h3⟩ := addPath_ok (pieces [] f) h.tree (fun p hpm => ⟨hall p hpm, (hp p hpm).2.1, (hp p hpm).1⟩)
    exact Or.inl ⟨hall, { r with fields := ms' }, by simp only [Req.field, h1, Res.bind_ok], ⟨h2, h.opts⟩, rfl, h3⟩
  · obtain ⟨p, hb⟩ := Classical.not_forall.mp hall
    obtain ⟨hpm, hb⟩ := Classical.not_imp.mp hb
    obtain ⟨e, he⟩ := addPath_throws (pieces [] f) h.tree ⟨p, hpm, hb⟩
    exact Or.inr ⟨⟨p, hpm, hb⟩, e, by simp only [Req.field, he, Res.bind_throws]⟩

theorem record_ok {r : Req} (h : ReqOK r) (k v : Str) : ReqOK (r.record k v) := ⟨h.tree, SMap.sorted_insert h.opts⟩

theorem applyItems_cases : ∀ (is : List Said) {r : Req}, ReqOK r →
    ((∀ f, Said.field f ∈ is → ∀ p ∈ pieces [] f, nameOK p) ∧ ∃ r', applyItems is r = .ok r' ∧ ReqOK r' ∧
      (∀ qs, HasPath r'.fields qs ↔ HasPath r.fields qs ∨ ∃ f, Said.field f ∈ is ∧ qs <+: pieces [] f) ∧
      (∀ k v, r'.options.find? k = some v ↔ LastOption is k v ∨ ((∀ v', Said.option k v' ∉ is) ∧ r.options.find? k = some v))) ∨
    ((∃ f, Said.field f ∈ is ∧ ∃ p ∈ pieces [] f, ¬ nameOK p) ∧ ∃ e, applyItems is r = .throws e)
  | [], r, h => by
    refine Or.inl ⟨fun f hf => (by cases hf), r, rfl, h, fun qs => (by simp), fun k v => ?_⟩
    constructor
    · intro hv; exact Or.inr ⟨fun v' h => (by cases h), hv⟩
    · rintro (⟨pre, post, e, _⟩ | ⟨_, h⟩)
      · simp at e
      · exact h
  | .field f :: is, r, h => by
    rcases field_cases h f with ⟨ha, r1, e1, ok1, o1, p1⟩ | ⟨hb, e, he⟩
    · rcases applyItems_cases is ok1 with ⟨hb, r2, e2, ok2, p2, o2⟩ | ⟨⟨f', hf', hb⟩, e, he⟩
      · refine Or.inl ⟨?_, r2, by simp only [applyItems, e1, Res.bind_ok, e2], ok2, fun qs => ?_, fun k v => ?_⟩
        · intro f' hf'
          rcases List.mem_cons.mp hf' with e | hf'
          · cases e; exact ha
          · exact hb f' hf'
        · rw [p2, p1]
          constructor
          · rintro ((h | h) | ⟨f', h1, h2⟩)
            · exact Or.inl h
            · exact Or.inr ⟨f, by simp, h⟩
            · exact Or.inr ⟨f', by simp [h1], h2⟩
          · rintro (h | ⟨f', h1, h2⟩)
            · exact Or.inl (Or.inl h)
            · rcases List.mem_cons.mp h1 with e | h1
              · cases e; exact Or.inl (Or.inr h2)
              · exact Or.inr ⟨f', h1, h2⟩
        · rw [o2, o1]
          have h1 : LastOption (.field f :: is) k v ↔ LastOption is k v := by
            constructor
            · rintro ⟨pre, post, e, hp⟩
              cases pre with
              | nil => simp at e
              | cons x pre =>
                simp only [List.cons_append, List.cons.injEq] at e
                exact ⟨pre, post, e.2, hp⟩
            · rintro ⟨pre, post, e, hp⟩
              exact ⟨.field f :: pre, post, by rw [e]; rfl, hp⟩
          have h2 : (∀ v', Said.option k v' ∉ Said.field f :: is) ↔ ∀ v', Said.option k v' ∉ is := by simp
          rw [h1, h2]
      · exact Or.inr ⟨⟨f', by simp [hf'], hb⟩, e, by simp only [applyItems, e1, Res.bind_ok, he]⟩
    · exact Or.inr ⟨⟨f, by simp, hb⟩, e, by simp only [applyItems, he, Res.bind_throws]⟩
  | .option k0 v0 :: is, r, h => by
    have ok1 := record_ok h k0 v0
    rcases applyItems_cases is ok1 with ⟨hb, r2, e2, ok2, p2, o2⟩ | ⟨⟨f', hf', hb⟩, e, he⟩
    · refine Or.inl ⟨?_, r2, by simp only [applyItems, e2], ok2, fun qs => ?_, fun k v => ?_⟩
      · intro f' hf'
        exact hb f' (by simpa using hf')
      · rw [p2]
        simp [Req.record]
      · rw [o2]
        have hfind : (r.record k0 v0).options.find? k = some v ↔ (k = k0 ∧ v = v0) ∨ (k ≠ k0 ∧ r.options.find? k = some v) := by
          rw [SMap.find?_some ok1.opts, SMap.find?_some h.opts]
          show (k, v) ∈ r.options.insert k0 v0 ↔ _
          rw [SMap.mem_insert h.opts]
          simp
        rw [hfind]
        constructor
        · rintro (⟨pre, post, e, hp⟩ | ⟨hno, ⟨rfl, rfl⟩ | ⟨hk, hv⟩⟩)
          · exact Or.inl ⟨.option k0 v0 :: pre, post, by rw [e]; rfl, hp⟩
          · exact Or.inl ⟨[], is, rfl, hno⟩
          · refine Or.inr ⟨fun v' hm => ?_, hv⟩
            rcases List.mem_cons.mp hm with e | hm
            · cases e; exact hk rfl
            · exact hno v' hm
        · rintro (⟨pre, post, e, hp⟩ | ⟨hno, hv⟩)
          · cases pre with
            | nil =>
              simp only [List.nil_append, List.cons.injEq, Said.option.injEq] at e
              obtain ⟨⟨rfl, rfl⟩, rfl⟩ := e
              exact Or.inr ⟨hp, Or.inl ⟨rfl, rfl⟩⟩
            | cons x pre =>
              simp only [List.cons_append, List.cons.injEq] at e
              exact Or.inl ⟨pre, post, e.2, hp⟩
          · refine Or.inr ⟨fun v' hm => hno v' (by simp [hm]), Or.inr ⟨?_, hv⟩⟩
            rintro rfl
            exact hno v0 (by simp)
    · exact Or.inr ⟨⟨f', by simp [hf'], hb⟩, e, by simp only [applyItems, he]⟩

/-- words contain word characters only -/
theorem reads_words {s : List Byte} {ts : List Tok} (h : Reads s ts) : ∀ w, Tok.name w ∈ ts → ∀ c ∈ w, WordChar c := by
  induction h with
  | nil => intro w hw; cases hw
  | sign n c t s ts hs _ ih =>
    intro w hw
    rcases List.mem_cons.mp hw with e | hw
    · subst e; cases hs
    · exact ih w hw
  | word n w0 t s ts hne hw0 h _ _ ih =>
    intro w hw
    rcases List.mem_cons.mp hw with e | hw
    · subst e; cases h with
      | name => exact hw0
    · exact ih w hw

theorem fieldList_words {ts : List Tok} {fs : List Str} (h : FieldList ts fs) : ∀ f ∈ fs, Tok.name f ∈ ts := by
  induction h with
  | nil => intro f hf; cases hf
  | comma ts fs _ ih => intro f hf; exact List.mem_cons_of_mem _ (ih f hf)
  | name w ts fs _ ih =>
    intro f hf
    rcases List.mem_cons.mp hf with rfl | hf
    · exact List.mem_cons_self
    · exact List.mem_cons_of_mem _ (ih f hf)

theorem sentence_words {ts : List Tok} {is : List Said} (h : Sentence ts is) : ∀ f, Said.field f ∈ is → Tok.name f ∈ ts := by
  induction h with
  | nil => intro f hf; cases hf
  | name w ts is _ ih =>
    intro f hf
    rcases List.mem_cons.mp hf with e | hf
    · cases e; exact List.mem_cons_self
    · exact List.mem_cons_of_mem _ (ih f hf)
  | field fts fs ts is hfl _ ih =>
    intro f hf
    rcases List.mem_append.mp hf with hf | hf
    · obtain ⟨x, hx, e⟩ := List.mem_map.mp hf
      cases e
      simp [fieldList_words hfl f hx]
    · simp [ih f hf]
  | record ots os ts is _ _ ih =>
    intro f hf
    rcases List.mem_append.mp hf with hf | hf
    · obtain ⟨x, hx, e⟩ := List.mem_map.mp hf
      cases e
    · simp [ih f hf]

/-- the components of the fields of a text -/
theorem nameOK_text {s : List Byte} {ts : List Tok} {is : List Said} (h1 : Reads s ts) (h2 : Sentence ts is) {f : Str}
    (hf : Said.field f ∈ is) : ∀ p ∈ pieces [] f, nameOK p ↔ NoDigit p := by
  intro p hp
  obtain ⟨a, b, c⟩ := parts_mem (pieces_parts f [] (by simp)) p hp
  exact nameOK_iff a (fun x hx => reads_words h1 f (sentence_words h2 f hf) x (c x hx)) b

/-! the parser never gets stuck -/

theorem parseFields_total : ∀ (n : Nat) (s : List Byte) (r : Req), ReqOK r → s.length < n →
    (∃ e, parseFields n s r = .throws e) ∨ ∃ t s' r', parseFields n s r = .ok (t, s', r') ∧ s'.length ≤ s.length ∧ ReqOK r'
  | 0, _, _, _, h => by omega
  | n + 1, s, r, hr, hl => by
    simp only [parseFields]
    rcases lex_cases s with ⟨h0, hl'⟩ | ⟨t1, s1, hs, hl'⟩ | ⟨_, _, e, hl'⟩
    · rw [hl']; exact Or.inr ⟨.eof, [], r, rfl, by simp, hr⟩
    · have hlt := step_shorter hs
      rw [hl', Res.bind_ok]
      have fin : ∀ x, (∃ e, (Res.ok (x, s1, r) : Res (Tok × List Byte × Req)) = .throws e) ∨
          ∃ t s' r', Res.ok (x, s1, r) = .ok (t, s', r') ∧ s'.length ≤ s.length ∧ ReqOK r' :=
        fun x => Or.inr ⟨x, s1, r, rfl, by omega, hr⟩
      cases t1 with
      | name w =>
        dsimp only
        rcases field_cases hr w with ⟨_, r1, e1, ok1, _⟩ | ⟨_, e, he⟩
        · rw [e1, Res.bind_ok]
          rcases parseFields_total n s1 r1 ok1 (by omega) with h | ⟨t, s', r', h1, h2, h3⟩
          · exact Or.inl h
          · exact Or.inr ⟨t, s', r', h1, by omega, h3⟩
        · rw [he]; exact Or.inl ⟨e, rfl⟩
      | comma =>
        dsimp only
        rcases parseFields_total n s1 r hr (by omega) with h | ⟨t, s', r', h1, h2, h3⟩
        · exact Or.inl h
        · exact Or.inr ⟨t, s', r', h1, by omega, h3⟩
      | lp => exact fin _
      | rp => exact fin _
      | lb => exact fin _
      | rb => exact fin _
      | eq => exact fin _
      | field => exact fin _
      | record => exact fin _
      | eof => exact fin _
    · rw [hl']; exact Or.inl ⟨e, rfl⟩

/-- what the lexer leaves is not longer -/
theorem lex_total (s : List Byte) : (∃ e, lex s = .throws e) ∨ ∃ t s', lex s = .ok (t, s') ∧ s'.length ≤ s.length := by
  rcases lex_cases s with ⟨h0, hl⟩ | ⟨t1, s1, hs, hl⟩ | ⟨_, _, e, hl⟩
  · exact Or.inr ⟨_, _, hl, by simp⟩
  · exact Or.inr ⟨_, _, hl, by have := step_shorter hs; omega⟩
  · exact Or.inl ⟨e, hl⟩

theorem parseValue_total (s : List Byte) : (∃ e, parseValue s = .throws e) ∨ ∃ v s', parseValue s = .ok (v, s') := by
  unfold parseValue
  rcases lex_total s with ⟨e, h⟩ | ⟨t, s1, h, _⟩
  · rw [h]; exact Or.inl ⟨e, rfl⟩
  · rw [h, Res.bind_ok]
    rcases lex_total s1 with ⟨e, h2⟩ | ⟨t2, s2, h2, _⟩
    · dsimp only; rw [h2]; exact Or.inl ⟨e, rfl⟩
    · dsimp only; rw [h2, Res.bind_ok]
      dsimp only
      split
      · exact Or.inr ⟨_, _, rfl⟩
      · exact Or.inl ⟨_, rfl⟩

theorem parseOptions_total : ∀ (n : Nat) (t : Tok) (s : List Byte) (r : Req), ReqOK r → s.length < n →
    (∃ e, parseOptions n t s r = .throws e) ∨ ∃ t' s' r', parseOptions n t s r = .ok (t', s', r') ∧ s'.length ≤ s.length ∧ ReqOK r'
    := by
  intro n
  induction n with
  | zero => intro _ _ _ _ h; omega
  | succ n ih =>
    intro t s r hr hl
    have fin : ∀ x, (∃ e, (Res.ok (x, s, r) : Res (Tok × List Byte × Req)) = .throws e) ∨
        ∃ t s' r', Res.ok (x, s, r) = .ok (t, s', r') ∧ s'.length ≤ s.length ∧ ReqOK r' :=
      fun x => Or.inr ⟨x, s, r, rfl, by omega, hr⟩
    cases t with
    | name k =>
      simp only [parseOptions]
      rcases parseValue_total s with ⟨e, hv⟩ | ⟨v, s1, hv⟩
      · rw [hv]; exact Or.inl ⟨e, rfl⟩
      · obtain ⟨s0, h1, h2⟩ := parseValue_sound hv
        have := step_shorter h1; have := step_shorter h2
        rw [hv, Res.bind_ok]
        dsimp only
        rcases lex_total s1 with ⟨e, h3⟩ | ⟨t3, s3, h3, hl3⟩
        · rw [h3]; exact Or.inl ⟨e, rfl⟩
        · rw [h3, Res.bind_ok]
          dsimp only
          split
          · rcases lex_total s3 with ⟨e, h4⟩ | ⟨t4, s4, h4, hl4⟩
            · rw [h4]; exact Or.inl ⟨e, rfl⟩
            · rw [h4, Res.bind_ok]
              dsimp only
              rcases ih t4 s4 _ (record_ok hr k v) (by omega) with h | ⟨t, s', r', h5, h6, h7⟩
              · exact Or.inl h
              · exact Or.inr ⟨t, s', r', h5, by omega, h7⟩
          · exact Or.inr ⟨t3, s3, _, rfl, by omega, record_ok hr k v⟩
    | comma => exact fin _
    | lp => exact fin _
    | rp => exact fin _
    | lb => exact fin _
    | rb => exact fin _
    | eq => exact fin _
    | field => exact fin _
    | record => exact fin _
    | eof => exact fin _

theorem parse_total : ∀ (n : Nat) (s : List Byte) (r : Req), ReqOK r → s.length < n →
    (∃ e, parse n s r = .throws e) ∨ ∃ r', parse n s r = .ok r' := by
  intro n
  induction n with
  | zero => intro _ _ _ h; omega
  | succ n ih =>
    intro s r hr hl
    simp only [parse]
    rcases lex_cases s with ⟨h0, hl'⟩ | ⟨t1, s1, hs, hl'⟩ | ⟨_, _, e, hl'⟩
    · rw [hl']; exact Or.inr ⟨r, rfl⟩
    · have hlt := step_shorter hs
      rw [hl', Res.bind_ok]
      cases t1 with
      | name w =>
        dsimp only
        rcases field_cases hr w with ⟨_, r1, e1, ok1, _⟩ | ⟨_, e, he⟩
        · rw [e1, Res.bind_ok]; exact ih s1 r1 ok1 (by omega)
        · rw [he]; exact Or.inl ⟨e, rfl⟩
      | eof => exact Or.inr ⟨r, rfl⟩
      | field =>
        dsimp only
        unfold parseFieldEnt
        rcases lex_total s1 with ⟨e, h⟩ | ⟨t2, s2, h, hl2⟩
        · rw [h]; exact Or.inl ⟨e, rfl⟩
        · rw [h, Res.bind_ok]
          dsimp only
          split
          · exact Or.inl ⟨_, rfl⟩
          · rcases parseFields_total n s2 r hr (by omega) with ⟨e, h3⟩ | ⟨t, s', r', h3, h4, h5⟩
            · rw [h3]; exact Or.inl ⟨e, rfl⟩
            · rw [h3, Res.bind_ok]
              dsimp only
              split
              · exact Or.inl ⟨_, rfl⟩
              · exact ih s' r' h5 (by omega)
      | record =>
        dsimp only
        unfold parseRecordEnt
        rcases lex_total s1 with ⟨e, h⟩ | ⟨t2, s2, h, hl2⟩
        · rw [h]; exact Or.inl ⟨e, rfl⟩
        · rw [h, Res.bind_ok]
          dsimp only
          split
          · exact Or.inl ⟨_, rfl⟩
          · rcases lex_total s2 with ⟨e, h⟩ | ⟨t3, s3, h, hl3⟩
            · rw [h]; exact Or.inl ⟨e, rfl⟩
            · rw [h, Res.bind_ok]
              dsimp only
              rcases parseOptions_total n t3 s3 r hr (by omega) with ⟨e, h3⟩ | ⟨t, s', r', h3, h4, h5⟩
              · rw [h3]; exact Or.inl ⟨e, rfl⟩
              · rw [h3, Res.bind_ok]
                dsimp only
                split
                · exact Or.inl ⟨_, rfl⟩
                · exact ih s' r' h5 (by omega)
      | comma => exact Or.inl ⟨_, rfl⟩
      | lp => exact Or.inl ⟨_, rfl⟩
      | rp => exact Or.inl ⟨_, rfl⟩
      | lb => exact Or.inl ⟨_, rfl⟩
      | rb => exact Or.inl ⟨_, rfl⟩
      | eq => exact Or.inl ⟨_, rfl⟩
    · rw [hl']; exact Or.inl ⟨e, rfl⟩

theorem reached_ok {r : Req} (h : Reached r) : ReqOK r := by
  induction h with
  | new => exact ⟨.mk [] (by simp) (by simp) (by simp), SMap.sorted_nil⟩
  | field r r' f _ e ih =>
    rcases field_cases ih f with ⟨_, r1, e1, ok1, _⟩ | ⟨_, e', he⟩
    · rw [e] at e1; cases e1; exact ok1
    · rw [e] at he; cases he
  | record r k v _ ih => exact record_ok ih k v
  | parse r r' s _ e ih =>
    obtain ⟨ts, is, _, _, h3⟩ := parse_sound _ _ _ _ e
    rcases applyItems_cases is ih with ⟨_, r1, e1, ok1, _⟩ | ⟨_, e', he⟩
    · rw [h3] at e1; cases e1; exact ok1
    · rw [h3] at he; cases he

/-! ### the type of the request -/

theorem tree_distinct {ms : List Member} (h : TreeOK ms) : (ms.map Member.name).Nodup ∧ DistinctNamesAll ms := by
  induction h with
  | mk ms nodup node kids ih =>
    refine ⟨nodup, ?_⟩
    have key : ∀ l : List Member, (∀ m ∈ l, m ∈ ms) → DistinctNamesAll l := by
      intro l
      induction l with
      | nil => intro _; exact True.intro
      | cons m l ihl =>
        intro hl
        have hm := hl m (by simp)
        refine ⟨(node m hm).2.2.1, ?_, ihl (fun x hx => hl x (by simp [hx]))⟩
        obtain ⟨code, name, id, ch⟩ := m
        exact ih ⟨code, name, id, ch⟩ hm
    exact key ms (fun _ h => h)

theorem fieldWord : (0x2e : Byte) ∉ ([0x66, 0x69, 0x65, 0x6c, 0x64] : Str) := by decide
theorem recordWord : (0x2e : Byte) ∉ ([0x72, 0x65, 0x63, 0x6f, 0x72, 0x64] : Str) := by decide
theorem optionsWord : (0x2e : Byte) ∉ ([0x5f, 0x6f, 0x70, 0x74, 0x69, 0x6f, 0x6e, 0x73] : Str) := by decide

theorem member_distinct {r : Req} (h : ReqOK r) (hk : ∀ k v, (k, v) ∈ r.options → (0x2e : Byte) ∉ k) : DistinctNames r.member := by
  have hf := tree_distinct h.tree
  unfold Req.member
  dsimp only
  by_cases ho : r.options = []
  · rw [if_pos ho]
    exact ⟨by simp, fieldWord, hf, True.intro⟩
  · rw [if_neg ho]
    have hopts : ((r.options.map fun p => ({ code := .String, name := p.1 } : Member)).map Member.name).Nodup := by
      have : (r.options.map fun p => ({ code := .String, name := p.1 } : Member)).map Member.name = r.options.map (·.1) := by
        rw [List.map_map]; rfl
      rw [this]
      have hs := h.opts
      unfold SMap.Sorted at hs
      refine List.Pairwise.map _ ?_ hs
      intro a b hlt e
      rw [e] at hlt
      rw [strLt_irrefl] at hlt; cases hlt
    have hall : DistinctNamesAll (r.options.map fun p => ({ code := .String, name := p.1 } : Member)) := by
      have key : ∀ l : List (Str × Str), (∀ p ∈ l, (0x2e : Byte) ∉ p.1) →
          DistinctNamesAll (l.map fun p => ({ code := .String, name := p.1 } : Member)) := by
        intro l
        induction l with
        | nil => intro _; exact True.intro
        | cons p l ih => intro hl; exact ⟨hl p (by simp), ⟨by simp, True.intro⟩, ih (fun q hq => hl q (by simp [hq]))⟩
      exact key _ (fun p hp => hk p.1 p.2 hp)
    exact ⟨by simp, fieldWord, hf, recordWord, ⟨by simp, optionsWord, ⟨hopts, hall⟩, True.intro⟩, True.intro⟩

/-- `c` is the part of `m` at a path -/
inductive At : Member → List Str → Member → Prop
  | here (m : Member) : At m [] m
  | down (m c x : Member) (ps : List Str) (hs : m.code = .Struct) (hc : c ∈ m.children) (h : At c ps x) : At m (c.name :: ps) x

theorem kidAt_of_mem {ms : List Member} {c : Member} (h : c ∈ ms) : ∃ o, KidAt 1 ms o c := by
  obtain ⟨pre, post, e⟩ := List.append_of_mem h
  exact ⟨_, pre, post, e, rfl⟩

theorem descends_back {m c : Member} (hcF : Full c) {off : Nat} (he : Embeds (flat c) (flat m) off) {i j : Nat} {ps : List Str}
    (h : Descends (flat m) i ps j) : ∀ i', i = off + i' → i' < count c →
    ∃ j', j = off + j' ∧ Descends (flat c) i' ps j' ∧ j' < count c := by
  induction h with
  | here i => intro i' e hi'; exact ⟨i', e, .here _, hi'⟩
  | member i d name o2 more j hd hc hm _ ih2 =>
    intro i' e hi'
    subst e
    have hlt : i' < (flat c).length := by rw [flat_length]; exact hi'
    obtain ⟨n, hn⟩ := he.get i' _ (List.getElem?_eq_getElem hlt)
    rw [hd] at hn; cases hn
    have hget : (flat c)[i']? = some ((flat c)[i']'hlt) := List.getElem?_eq_getElem hlt
    have hnode := nodeOK_flat c hcF i' _ hget
    obtain ⟨_, x, hx, _⟩ := hnode.child hc name o2 hm
    have hxl := (List.getElem?_eq_some_iff.mp hx).1
    rw [flat_length] at hxl
    obtain ⟨j', h4, h5, h6⟩ := ih2 (i' + o2) (by omega) hxl
    exact ⟨j', h4, .member i' _ name o2 more j' hget hc hm h5, h6⟩

theorem at_of_descends : ∀ (ps : List Str) {m : Member} {q : Nat}, Full m → Descends (flat m) 0 ps q →
    ∃ c, At m ps c ∧ Embeds (flat c) (flat m) q
  | [], m, q, hf, h => by
    cases h with
    | here => exact ⟨m, .here m, Embeds.refl m⟩
  | p :: ps, m, q, hf, h => by
    cases h with
    | member _ d _ off _ _ hd hc hm h =>
      obtain ⟨d0, ds, e0, hcode, _⟩ := flat_head m
      have hs : m.code = .Struct := by
        rw [e0] at hd; cases hd; rw [← hcode, hc]
      rw [flat_root hs] at hd; cases hd
      obtain ⟨c, hk, rfl⟩ := mem_kidIter.mp hm
      have hcF := (hf.entries hs).2.2 c hk.mem
      have he := embeds_child hs hk
      obtain ⟨j', rfl, hD, _⟩ := descends_back hcF he h 0 (by omega) (count_pos c)
      obtain ⟨x, hx, hE⟩ := at_of_descends ps hcF hD
      exact ⟨x, .down m c x ps hs hk.mem hx, hE.comp he⟩

theorem descends_of_at {m c : Member} {ps : List Str} (h : At m ps c) : Full m → ∃ q, Descends (flat m) 0 ps q ∧ Embeds (flat c) (flat m) q := by
  induction h with
  | here m => intro _; exact ⟨0, .here _, Embeds.refl m⟩
  | down m c x ps hs hc _ ih =>
    intro hf
    obtain ⟨o, hk⟩ := kidAt_of_mem hc
    obtain ⟨q, h1, h2⟩ := ih ((hf.entries hs).2.2 c hc)
    have he := embeds_child hs hk
    have h3 := descends_embed he h1
    exact ⟨o + q, .member 0 _ _ o _ _ (flat_root hs) rfl (mem_kidIter.mpr ⟨c, hk, rfl⟩) (by rw [Nat.zero_add]; exact h3), h2.comp he⟩

theorem at_append {m c : Member} {ps qs : List Str} : At m (ps ++ qs) c ↔ ∃ x, At m ps x ∧ At x qs c := by
  induction ps generalizing m with
  | nil =>
    constructor
    · intro h; exact ⟨m, .here m, h⟩
    · rintro ⟨x, h1, h2⟩; cases h1; exact h2
  | cons p ps ih =>
    constructor
    · intro h
      cases h with
      | down _ k _ _ hs hc h =>
        obtain ⟨x, h1, h2⟩ := ih.mp h
        exact ⟨x, .down m k x ps hs hc h1, h2⟩
    · rintro ⟨x, h1, h2⟩
      cases h1 with
      | down _ k _ _ hs hc h => exact .down m k c _ hs hc (ih.mpr ⟨x, h, h2⟩)

theorem name_unique {ms : List Member} (h : (ms.map Member.name).Nodup) {a b : Member} (ha : a ∈ ms) (hb : b ∈ ms) (e : a.name = b.name) :
    a = b := by
  induction ms with
  | nil => cases ha
  | cons x ms ih =>
    rw [List.map_cons, List.nodup_cons] at h
    rcases List.mem_cons.mp ha with e1 | ha' <;> rcases List.mem_cons.mp hb with e2 | hb'
    · rw [e1, e2]
    · exact absurd (List.mem_map.mpr ⟨b, hb', by rw [← e, e1]⟩) h.1
    · exact absurd (List.mem_map.mpr ⟨a, ha', by rw [e, e2]⟩) h.1
    · exact ih h.2 ha' hb'

/-- in a tree of structures every path leads to one structure -/
theorem at_tree : ∀ (ps : List Str) {m : Member}, m.code = .Struct → TreeOK m.children →
    (HasPath m.children ps ↔ ∃ c, At m ps c) ∧ ∀ c, At m ps c → c.code = .Struct ∧ ∀ c', At m ps c' → c' = c
  | [], m, hs, ht => by
    refine ⟨⟨fun _ => ⟨m, .here m⟩, fun _ => .here _⟩, fun c h => ?_⟩
    cases h
    exact ⟨hs, fun c' h' => by cases h'; rfl⟩
  | p :: ps, m, hs, ht => by
    cases ht with
    | mk _ nodup node kids =>
      constructor
      · constructor
        · intro h
          cases h with
          | down _ k _ hk h =>
            obtain ⟨c, hc⟩ := (at_tree ps (node k hk).1 (kids k hk)).1.mp h
            exact ⟨c, .down m k c ps hs hk hc⟩
        · rintro ⟨c, h⟩
          cases h with
          | down _ k _ _ _ hk h => exact .down _ k ps hk ((at_tree ps (node k hk).1 (kids k hk)).1.mpr ⟨c, h⟩)
      · intro c h
        generalize e : p :: ps = l at h
        cases h with
        | here => cases e
        | down _ k _ l' _ hk h =>
          obtain ⟨e1, rfl⟩ := List.cons.inj e
          have := (at_tree ps (node k hk).1 (kids k hk)).2 c h
          refine ⟨this.1, fun c' h' => ?_⟩
          generalize e2 : k.name :: ps = l2 at h'
          cases h' with
          | here => cases e2
          | down _ k' _ l' _ hk' h' =>
            obtain ⟨e3, rfl⟩ := List.cons.inj e2
            have := name_unique nodup hk' hk e3.symm
            subst this
            exact this.2 c' h'

/-- the member `field` of the request -/
def fieldMember (r : Req) : Member := { code := .Struct, name := fieldName, children := r.fields }

theorem member_at (r : Req) (ps : List Str) (c : Member) : At r.member (fieldName :: ps) c ↔ At (fieldMember r) ps c := by
  have hs : r.member.code = .Struct := rfl
  have hmem : ∀ k ∈ r.member.children, k.name = fieldName → k = fieldMember r := by
    intro k hk hn
    unfold Req.member at hk
    dsimp only at hk
    split at hk
    · simp only [List.mem_singleton] at hk; exact hk
    · simp only [List.mem_cons, List.not_mem_nil, or_false] at hk
      rcases hk with rfl | rfl
      · rfl
      · simp [fieldName] at hn
  have hin : fieldMember r ∈ r.member.children := by
    unfold Req.member fieldMember
    dsimp only
    split <;> exact List.mem_cons_self
  constructor
  · intro h
    generalize e : fieldName :: ps = l at h
    cases h with
    | here => cases e
    | down _ k _ l' _ hk h =>
      obtain ⟨e1, rfl⟩ := List.cons.inj e
      rw [hmem k hk e1.symm] at h; exact h
  · intro h
    exact .down r.member (fieldMember r) c ps hs hin h

theorem kidIter_nil {off : Nat} {ms : List Member} : kidIter off ms = [] ↔ ms = [] := by
  cases ms with
  | nil => simp [kidIter]
  | cons m ms => simp [kidIter]

theorem embeds_root {m c : Member} {q : Nat} (hE : Embeds (flat c) (flat m) q) (hs : c.code = .Struct) :
    ∃ d, (flat m)[q]? = some d ∧ d.code = .Struct ∧ (d.miter = [] ↔ c.children = []) := by
  obtain ⟨n, hn⟩ := hE.get 0 _ (flat_root hs)
  rw [Nat.add_zero] at hn
  exact ⟨_, hn, rfl, kidIter_nil⟩

/-- the fields below `field`, and whether they have parts -/
theorem member_paths {r : Req} (h : ReqOK r) (hf : Full r.member) (ps : List Str) :
    (Asks r ps ↔ ∃ q, Descends (flat r.member) 0 (fieldName :: ps) q) ∧
    ∀ q, Descends (flat r.member) 0 (fieldName :: ps) q → ∃ d, (flat r.member)[q]? = some d ∧ d.code = .Struct ∧
      (d.miter = [] ↔ ∀ n, ¬ Asks r (ps ++ [n])) := by
  have ht := at_tree ps (m := fieldMember r) rfl h.tree
  constructor
  · show HasPath (fieldMember r).children ps ↔ _
    rw [ht.1]
    constructor
    · rintro ⟨c, hc⟩
      obtain ⟨q, hq, _⟩ := descends_of_at ((member_at r ps c).mpr hc) hf
      exact ⟨q, hq⟩
    · rintro ⟨q, hq⟩
      obtain ⟨c, hc, _⟩ := at_of_descends _ hf hq
      exact ⟨c, (member_at r ps c).mp hc⟩
  · intro q hq
    obtain ⟨c, hc, hE⟩ := at_of_descends _ hf hq
    have hc := (member_at r ps c).mp hc
    obtain ⟨hcs, hu⟩ := ht.2 c hc
    obtain ⟨d, h1, h2, h3⟩ := embeds_root hE hcs
    refine ⟨d, h1, h2, h3.trans ?_⟩
    have hext : ∀ n, Asks r (ps ++ [n]) ↔ ∃ k ∈ c.children, k.name = n := by
      intro n
      show HasPath (fieldMember r).children (ps ++ [n]) ↔ _
      rw [(at_tree (ps ++ [n]) (m := fieldMember r) rfl h.tree).1]
      constructor
      · rintro ⟨x, hx⟩
        obtain ⟨y, hy, hx⟩ := at_append.mp hx
        rw [hu y hy] at hx
        cases hx with
        | down _ k _ _ _ hk _ => exact ⟨k, hk, rfl⟩
      · rintro ⟨k, hk, rfl⟩
        exact ⟨k, at_append.mpr ⟨c, hc, .down c k k [] hcs hk (.here k)⟩⟩
    constructor
    · intro he n hn
      obtain ⟨k, hk, _⟩ := (hext n).mp hn
      rw [he] at hk; cases hk
    · intro hno
      cases hcc : c.children with
      | nil => rfl
      | cons k l => exact absurd ((hext k.name).mpr ⟨k, by rw [hcc]; simp, rfl⟩) (hno k.name)

end Pvxs.PVR
