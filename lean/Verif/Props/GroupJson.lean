import Verif.Spec.GroupJson
import Verif.Lemmas.SMap
/-
C94: reading group definitions.
-/
namespace Pvxs.Props.GJson
open Pvxs.GJson Spec.GJson
open Group (MapType FieldConf)

/-! ### maps -/

theorem find_insert (k : Str) (v : α) (m : SMap α) (j : Str) : (m.insert k v).find? j = if j = k then some v else m.find? j := by
  induction m with
  | nil => simp only [SMap.insert, SMap.find?]
  | cons e m ih =>
    obtain ⟨k', v'⟩ := e
    simp only [SMap.insert]
    by_cases h1 : k = k'
    · subst h1
      simp only [if_true, SMap.find?]
      by_cases h2 : j = k <;> simp [h2]
    · rw [if_neg h1]
      by_cases h2 : strLt k k' = true
      · rw [if_pos h2]
        simp only [SMap.find?]
      · rw [if_neg h2]
        simp only [SMap.find?, ih]
        by_cases h3 : j = k'
        · subst h3
          simp [Ne.symm h1]
        · simp [h3]

/-- `m[k]` is changed by `f`; it is made if it is not there -/
def upd (m : SMap α) (k : Str) (d : α) (f : α → α) : SMap α := m.insert k (f ((m.find? k).getD d))

/-- what an option changes -/
def optSet (r : Option Str) (o : Opt) (F : Pvxs.GJson.Field) : Pvxs.GJson.Field :=
  match o with
  | .type t => { F with conf := { F.conf with type := t } }
  | .channel s => { F with conf := { F.conf with channel := prefixOf r ++ s } }
  | .id s => { F with id := s }
  | .trigger s => { F with conf := { F.conf with trigger := s } }
  | .putorder n => { F with conf := { F.conf with putOrder := some (if n = int64Min then n + 1 else n) } }
  | .const v => { F with cval := v }
  | .typeOther _ => F
  | .other _ _ => F

/-- what one key of a definition changes -/
def applyGroups (m : SMap GroupC) : Said → SMap GroupC
  | .atomic g b => upd m g {} fun G => { G with atomic := some b }
  | .id g s => upd m g {} fun G => { G with id := s }
  | .other g _ => upd m g {} fun G => G
  | .field r g f o => upd m g {} fun G => { G with fields := upd G.fields f {} (optSet r o) }

def applySaid (p : Proc) (s : Said) : Proc :=
  { groups := applyGroups p.groups s, warnings := p.warnings ++ (warningOf s).toList }

theorem typeNamed_name (t : MapType) : typeNamed (bytes (typeName t)) = some t := by cases t <;> rfl

theorem typeNamed_none {s : Str} (h : ∀ t, s ≠ bytes (typeName t)) : typeNamed s = none := by
  have h1 : s ≠ [0x73, 0x63, 0x61, 0x6c, 0x61, 0x72] := h .scalar
  have h2 : s ≠ [0x70, 0x6c, 0x61, 0x69, 0x6e] := h .plain
  have h3 : s ≠ [0x61, 0x6e, 0x79] := h .any
  have h4 : s ≠ [0x6d, 0x65, 0x74, 0x61] := h .metadata
  have h5 : s ≠ [0x70, 0x72, 0x6f, 0x63] := h .proc
  have h6 : s ≠ [0x73, 0x74, 0x72, 0x75, 0x63, 0x74, 0x75, 0x72, 0x65] := h .struct
  have h7 : s ≠ [0x63, 0x6f, 0x6e, 0x73, 0x74] := h .const
  simp only [typeNamed, if_neg h1, if_neg h2, if_neg h3, if_neg h4, if_neg h5, if_neg h6, if_neg h7]

theorem run_opt (r : Option Str) (c : Ctx) (o : Opt) (es : List Ev) (hd : c.depth = 3) (hk : c.key = []) (hp : c.pre = prefixOf r) (h : o.Good) :
    run c (pair o.json ++ es) = run { c with proc := applySaid c.proc (.field r c.groupName c.field o) } es := by
  obtain ⟨pre, ⟨groups, warnings⟩, groupName, field, key, depth, error⟩ := c
  simp only at hd hk hp
  subst hd hk hp
  cases o with
  | other k v =>
    obtain ⟨hk, hn⟩ := h
    simp only [List.map_cons, List.map_nil, List.mem_cons, List.not_mem_nil, or_false, not_or] at hn
    obtain ⟨h1, h2, h3, h4, h5, h6⟩ := hn
    have h1 : k ≠ kType := h1
    have h2 : k ≠ kChannel := h2
    have h3 : k ≠ kId := h3
    have h4 : k ≠ kTrigger := h4
    have h5 : k ≠ kPutorder := h5
    have h6 : k ≠ kConst := h6
    simp [pair, Opt.json, run, callback, onKey, hk, yajlProcess, Pvxs.GJson.assign, assignField, h1, h2, h3, h4, h5, h6, done, Ctx.warn, Ctx.withField,
      Ctx.withGroup, Ctx.fieldOf, Ctx.group, applySaid, applyGroups, upd, optSet, warningOf, bytes]
  | typeOther t =>
    have e : bytes "+type" = kType := rfl
    have n : kType ≠ [] := by decide
    have ht : typeNamed t = none := typeNamed_none h
    simp [pair, Opt.json, run, callback, onKey, yajlProcess, Pvxs.GJson.assign, assignField, e, n, assignType, asText, ht, done, Ctx.warn, Ctx.withField,
      Ctx.withGroup, Ctx.fieldOf, Ctx.group, applySaid, applyGroups, upd, optSet, warningOf]
  | type t =>
    have e : bytes "+type" = kType := rfl
    have n : kType ≠ [] := by decide
    simp [pair, Opt.json, run, callback, onKey, yajlProcess, Pvxs.GJson.assign, assignField, e, n, assignType, asText, typeNamed_name, done, Ctx.withField,
      Ctx.withGroup, Ctx.fieldOf, Ctx.group, applySaid, applyGroups, upd, optSet, warningOf]
  | channel s =>
    have e : bytes "+channel" = kChannel := rfl
    have n : kChannel ≠ [] := by decide
    have a : kChannel ≠ kType := by decide
    simp [pair, Opt.json, run, callback, onKey, yajlProcess, Pvxs.GJson.assign, assignField, e, n, a, assignText, asText, done, Ctx.withField,
      Ctx.withGroup, Ctx.fieldOf, Ctx.group, applySaid, applyGroups, upd, optSet, warningOf]
  | id s =>
    have e : bytes "+id" = kId := rfl
    have n : kId ≠ [] := by decide
    have a : kId ≠ kType := by decide
    have b : kId ≠ kChannel := by decide
    simp [pair, Opt.json, run, callback, onKey, yajlProcess, Pvxs.GJson.assign, assignField, e, n, a, b, assignText, asText, done, Ctx.withField,
      Ctx.withGroup, Ctx.fieldOf, Ctx.group, applySaid, applyGroups, upd, optSet, warningOf]
  | trigger s =>
    have e : bytes "+trigger" = kTrigger := rfl
    have n : kTrigger ≠ [] := by decide
    have a : kTrigger ≠ kType := by decide
    have b : kTrigger ≠ kChannel := by decide
    have d : kTrigger ≠ kId := by decide
    simp [pair, Opt.json, run, callback, onKey, yajlProcess, Pvxs.GJson.assign, assignField, e, n, a, b, d, assignText, asText, done, Ctx.withField,
      Ctx.withGroup, Ctx.fieldOf, Ctx.group, applySaid, applyGroups, upd, optSet, warningOf]
  | putorder m =>
    have e : bytes "+putorder" = kPutorder := rfl
    have n : kPutorder ≠ [] := by decide
    have a : kPutorder ≠ kType := by decide
    have b : kPutorder ≠ kChannel := by decide
    have d : kPutorder ≠ kId := by decide
    have f : kPutorder ≠ kTrigger := by decide
    simp [pair, Opt.json, run, callback, onKey, yajlProcess, Pvxs.GJson.assign, assignField, e, n, a, b, d, f, assignOrder, asInt, done, Ctx.withField,
      Ctx.withGroup, Ctx.fieldOf, Ctx.group, applySaid, applyGroups, upd, optSet, warningOf]
  | const v =>
    have e : bytes "+const" = kConst := rfl
    have n : kConst ≠ [] := by decide
    have a : kConst ≠ kType := by decide
    have b : kConst ≠ kChannel := by decide
    have d : kConst ≠ kId := by decide
    have f : kConst ≠ kTrigger := by decide
    have g : kConst ≠ kPutorder := by decide
    simp [pair, Opt.json, run, callback, onKey, yajlProcess, Pvxs.GJson.assign, assignField, e, n, a, b, d, f, g, done, Ctx.withField,
      Ctx.withGroup, Ctx.fieldOf, Ctx.group, applySaid, applyGroups, upd, optSet, warningOf]

theorem run_opts (r : Option Str) (os : List Opt) (h : ∀ o ∈ os, o.Good) (c : Ctx) (es : List Ev) (hd : c.depth = 3) (hk : c.key = [])
    (hp : c.pre = prefixOf r) :
    run c ((os.flatMap fun o => pair o.json) ++ es) = run { c with proc := (os.map (Said.field r c.groupName c.field)).foldl applySaid c.proc } es := by
  induction os generalizing c with
  | nil => rfl
  | cons o os ih =>
    rw [List.flatMap_cons, List.append_assoc, run_opt r c o _ hd hk hp (h o (by simp))]
    exact ih (fun o ho => h o (by simp [ho])) { c with proc := applySaid c.proc (Said.field r c.groupName c.field o) } hd hk hp

/-- what is left of the name of a field -/
def fieldAfter : Item → Str
  | .field n _ => n
  | _ => []

theorem run_item (r : Option Str) (i : Item) (h : i.Good) (c : Ctx) (es : List Ev) (hd : c.depth = 2) (hk : c.key = []) (hp : c.pre = prefixOf r)
    :
    run c (i.evs ++ es) = run { c with proc := (i.said r c.groupName).foldl applySaid c.proc, field := fieldAfter i } es := by
  cases i with
  | atomic b =>
    have e : bytes "+atomic" = kAtomic := rfl
    simp [Item.evs, pair, run, callback, onKey, hd, yajlProcess, Pvxs.GJson.assign, assignGroup, e, asBool, Ctx.withGroup, Ctx.group, Item.said, applySaid,
      applyGroups, upd, warningOf, fieldAfter]
  | id s =>
    have e : bytes "+id" = kId := rfl
    have a : kId ≠ kAtomic := by decide
    simp [Item.evs, pair, run, callback, onKey, hd, yajlProcess, Pvxs.GJson.assign, assignGroup, e, a, asText, Ctx.withGroup, Ctx.group, Item.said, applySaid,
      applyGroups, upd, warningOf, fieldAfter]
  | other k v =>
    simp only [Item.Good, List.map_cons, List.map_nil, List.mem_cons, List.not_mem_nil, or_false, not_or] at h
    have h1 : k ≠ kAtomic := h.1
    have h2 : k ≠ kId := h.2
    simp [Item.evs, pair, run, callback, onKey, hd, yajlProcess, Pvxs.GJson.assign, assignGroup, h1, h2, Ctx.withGroup, Ctx.group, Ctx.warn, Item.said, applySaid,
      applyGroups, upd, warningOf, fieldAfter]
  | field n os =>
    have h' : ∀ o ∈ os, o.Good := h
    have e1 : run c (Item.evs (.field n os) ++ es)
        = run { c with field := n, depth := 3 } ((os.flatMap fun o => pair o.json) ++ (Ev.endMap :: es)) := by
      simp [Item.evs, run, callback, onKey, onStart, hd, yajlProcess]
    rw [e1, run_opts r os h' { c with field := n, depth := 3 } _ rfl hk hp]
    simp [run, callback, onEnd, hk, yajlProcess, Item.said, hd, fieldAfter]

theorem run_items (r : Option Str) (is : List Item) (h : ∀ i ∈ is, i.Good) (c : Ctx) (es : List Ev) (hd : c.depth = 2) (hk : c.key = [])
    (hp : c.pre = prefixOf r) :
    ∃ f, run c (is.flatMap Item.evs ++ es)
      = run { c with proc := (is.flatMap (Item.said r c.groupName)).foldl applySaid c.proc, field := f } es := by
  induction is generalizing c with
  | nil => exact ⟨c.field, rfl⟩
  | cons i is ih =>
    rw [List.flatMap_cons, List.append_assoc, run_item r i (h i (by simp)) c _ hd hk hp]
    obtain ⟨f, hf⟩ := ih (fun i hi => h i (by simp [hi]))
      { c with proc := (i.said r c.groupName).foldl applySaid c.proc, field := fieldAfter i } hd hk hp
    exact ⟨f, by rw [hf, List.flatMap_cons, List.foldl_append]⟩

theorem run_groups (r : Option Str) (d : Doc) (h : Good d) (c : Ctx) (es : List Ev) (hd : c.depth = 1) (hk : c.key = []) (hp : c.pre = prefixOf r) :
    ∃ g f, run c (d.flatMap groupEvs ++ es) = run { c with proc := (said r d).foldl applySaid c.proc, groupName := g, field := f } es := by
  induction d generalizing c with
  | nil => exact ⟨c.groupName, c.field, rfl⟩
  | cons g d ih =>
    obtain ⟨hn, hg⟩ := h g (by simp)
    have e1 : run c ((g :: d).flatMap groupEvs ++ es)
        = run { c with groupName := g.1, depth := 2 } (g.2.flatMap Item.evs ++ (Ev.endMap :: (d.flatMap groupEvs ++ es))) := by
      simp [groupEvs, run, callback, onKey, onStart, hd, hn, yajlProcess]
    obtain ⟨f, hf⟩ := run_items r g.2 hg { c with groupName := g.1, depth := 2 } (Ev.endMap :: (d.flatMap groupEvs ++ es)) rfl hk hp
    have e2 : ∀ q : Proc, run { pre := c.pre, proc := q, groupName := g.1, field := f, key := c.key, depth := 2, error := c.error }
          (Ev.endMap :: (d.flatMap groupEvs ++ es))
        = run { c with proc := q, groupName := g.1, field := [] } (d.flatMap groupEvs ++ es) := by
      intro q
      simp [run, callback, onEnd, hk, yajlProcess, hd]
    obtain ⟨g', f', hf'⟩ := ih (fun g hg => h g (by simp [hg]))
      { c with proc := (g.2.flatMap (Item.said r g.1)).foldl applySaid c.proc, groupName := g.1, field := [] } hd hk hp
    refine ⟨g', f', ?_⟩
    rw [e1, hf, e2, hf']
    show run { c with proc := (said r d).foldl applySaid ((g.2.flatMap (Item.said r g.1)).foldl applySaid c.proc), groupName := g', field := f' } es = _
    rw [← List.foldl_append]
    rfl

theorem parse_doc (p : Proc) (r : Option Str) (d : Doc) (h : Good d) : parse p r (text d) = .ok ((said r d).foldl applySaid p, none) := by
  have e : ∀ c : Ctx, c.depth = 0 → run c (text d).evs = run { c with depth := 1 } (d.flatMap groupEvs ++ [Ev.endMap]) := by
    intro c hc
    simp [text, run, callback, onStart, hc, yajlProcess]
  unfold parse
  rw [e _ rfl]
  obtain ⟨g, f, hf⟩ := run_groups r d h { pre := prefixOf r, proc := p, depth := 1 } [Ev.endMap] rfl rfl rfl
  rw [hf]
  simp [run, callback, onEnd, yajlProcess, text]

/-! ### what is recorded -/

theorem lastOf_snoc (p : Said → Option α) (l : List Said) (s : Said) : lastOf p (l ++ [s]) = (p s).or (lastOf p l) := by
  unfold lastOf
  rw [List.filterMap_append]
  cases h : p s <;> simp [List.filterMap_cons, h]

/-- the order is an int64_t -/
def InRange : Said → Prop
  | .field _ _ _ (.putorder n) => -9223372036854775808 ≤ n
  | _ => True

theorem meaning_same (l : List Said) (r : Option Str) (g f : Str) (o : Opt) (h : InRange (.field r g f o)) :
    fieldMeaning (l ++ [.field r g f o]) g f = optSet r o (fieldMeaning l g f) := by
  cases o with
  | putorder n =>
    have h : -9223372036854775808 ≤ n := h
    have e : max n (-9223372036854775807) = if n = int64Min then n + 1 else n := by
      unfold int64Min
      split <;> omega
    simp [fieldMeaning, confMeaning, lastOf_snoc, pick, optType, optChannel, optTrigger, optOrder, optId, optConst, optSet, e]
  | channel s =>
    cases r <;>
    simp [fieldMeaning, confMeaning, lastOf_snoc, pick, optType, optChannel, optTrigger, optOrder, optId, optConst, optSet, bytes, prefixOf]
  | _ => simp [fieldMeaning, confMeaning, lastOf_snoc, pick, optType, optChannel, optTrigger, optOrder, optId, optConst, optSet]

theorem meaning_other (l : List Said) (s : Said) (g f : Str) (h : ∀ r o, s ≠ .field r g f o) :
    fieldMeaning (l ++ [s]) g f = fieldMeaning l g f := by
  have e : ∀ {α : Type} (p : Option Str → Opt → Option α), pick g f p s = none := by
    intro α p
    cases s with
    | field r g' f' o =>
      by_cases hh : g' = g ∧ f' = f
      · exact absurd (by rw [hh.1, hh.2]) (h r o)
      · simp [pick, hh]
    | _ => rfl
  simp [fieldMeaning, confMeaning, lastOf_snoc, e]

/-- the group in the map is what is said -/
def Is (l : List Said) (g : Str) (G : GroupC) : Prop :=
  G.atomic = lastOf (pickAtomic g) l ∧ G.id = (lastOf (pickId g) l).getD [] ∧
    ∀ f, (G.fields.find? f).getD {} = fieldMeaning l g f ∧ ((G.fields.find? f).isSome ↔ MentionsField l g f)

def Inv (l : List Said) (m : SMap GroupC) : Prop := ∀ g, Is l g ((m.find? g).getD {}) ∧ ((m.find? g).isSome ↔ Mentions l g)

theorem mentions_snoc (l : List Said) (s : Said) (g : Str) : Mentions (l ++ [s]) g ↔ Mentions l g ∨ s.group = g := by
  simp only [Mentions, List.mem_append, List.mem_singleton]
  constructor
  · rintro ⟨t, h | rfl, hg⟩
    · exact .inl ⟨t, h, hg⟩
    · exact .inr hg
  · rintro (⟨t, h, hg⟩ | hg)
    · exact ⟨t, .inl h, hg⟩
    · exact ⟨s, .inr rfl, hg⟩

theorem mentionsField_snoc (l : List Said) (s : Said) (g f : Str) :
    MentionsField (l ++ [s]) g f ↔ MentionsField l g f ∨ ∃ r o, s = .field r g f o := by
  simp only [MentionsField, List.mem_append, List.mem_singleton]
  constructor
  · rintro ⟨t, h | rfl, r, o, hg⟩
    · exact .inl ⟨t, h, r, o, hg⟩
    · exact .inr ⟨r, o, hg⟩
  · rintro (⟨t, h, r, o, hg⟩ | ⟨r, o, hg⟩)
    · exact ⟨t, .inl h, r, o, hg⟩
    · exact ⟨s, .inr rfl, r, o, hg⟩

theorem find_upd (m : SMap α) (k : Str) (d : α) (f : α → α) (j : Str) :
    (upd m k d f).find? j = if j = k then some (f ((m.find? k).getD d)) else m.find? j := find_insert k _ m j

/-- about another group nothing changes -/
theorem is_other {l : List Said} {s : Said} {g : Str} {G : GroupC} (h : Is l g G) (hs : s.group ≠ g) : Is (l ++ [s]) g G := by
  obtain ⟨h1, h2, h3⟩ := h
  refine ⟨?_, ?_, fun f => ?_⟩
  · rw [lastOf_snoc, h1]
    cases s <;> simp_all [pickAtomic, Said.group]
  · rw [lastOf_snoc, h2]
    cases s <;> simp_all [pickId, Said.group]
  · have hn : ∀ r o, s ≠ .field r g f o := by rintro r o rfl; exact hs rfl
    rw [meaning_other _ _ _ _ hn, mentionsField_snoc]
    refine ⟨(h3 f).1, (h3 f).2.trans ⟨.inl, ?_⟩⟩
    rintro (h | ⟨r, o, h⟩)
    · exact h
    · exact absurd h (hn r o)

/-- the fields stay as they are -/
theorem is_fields {l : List Said} {s : Said} {g : Str} {G : GroupC} (h : Is l g G) (hs : ∀ r f o, s ≠ .field r g f o) (f : Str) :
    (G.fields.find? f).getD {} = fieldMeaning (l ++ [s]) g f ∧ ((G.fields.find? f).isSome ↔ MentionsField (l ++ [s]) g f) := by
  obtain ⟨_, _, h3⟩ := h
  rw [meaning_other _ _ _ _ (fun r o => hs r f o), mentionsField_snoc]
  refine ⟨(h3 f).1, (h3 f).2.trans ⟨.inl, ?_⟩⟩
  rintro (h | ⟨r, o, h⟩)
  · exact h
  · exact absurd h (hs r f o)

theorem inv_step {l : List Said} {m : SMap GroupC} (h : Inv l m) (s : Said) (hs : InRange s) : Inv (l ++ [s]) (applyGroups m s) := by
  intro g
  have key : ∀ F : GroupC → GroupC, Is (l ++ [s]) s.group (F ((m.find? s.group).getD {})) →
      Is (l ++ [s]) g (((upd m s.group {} F).find? g).getD {}) ∧ (((upd m s.group {} F).find? g).isSome ↔ Mentions (l ++ [s]) g) := by
    intro F hF
    rw [find_upd, mentions_snoc]
    by_cases hg : g = s.group
    · subst hg
      simp [hF]
    · rw [if_neg hg]
      have hg' : s.group ≠ g := fun e => hg e.symm
      refine ⟨is_other (h g).1 hg', (h g).2.trans ⟨.inl, ?_⟩⟩
      rintro (x | x)
      · exact x
      · exact absurd x hg'
  have h0 := (h s.group).1
  cases s with
  | atomic g0 b =>
    refine key (fun G => { G with atomic := some b }) ⟨?_, ?_, ?_⟩
    · simp [lastOf_snoc, pickAtomic, Said.group]
    · rw [lastOf_snoc]; exact h0.2.1
    · exact is_fields (G := (m.find? g0).getD {}) h0 (by simp)
  | id g0 t =>
    refine key (fun G => { G with id := t }) ⟨?_, ?_, ?_⟩
    · rw [lastOf_snoc]; exact h0.1
    · simp [lastOf_snoc, pickId, Said.group]
    · exact is_fields (G := (m.find? g0).getD {}) h0 (by simp)
  | other g0 k =>
    refine key (fun G => G) ⟨?_, ?_, ?_⟩
    · rw [lastOf_snoc]; exact h0.1
    · rw [lastOf_snoc]; exact h0.2.1
    · exact is_fields (G := (m.find? g0).getD {}) h0 (by simp)
  | field r g0 f0 o =>
    refine key (fun G => { G with fields := upd G.fields f0 {} (optSet r o) }) ⟨?_, ?_, fun f => ?_⟩
    · rw [lastOf_snoc]; exact h0.1
    · rw [lastOf_snoc]; exact h0.2.1
    · rw [find_upd, mentionsField_snoc]
      have hf := h0.2.2
      by_cases e : f = f0
      · subst e
        refine ⟨?_, by simp [Said.group]⟩
        rw [if_pos rfl]
        show optSet r o _ = _
        rw [(hf f).1]
        exact (meaning_same l r g0 f o hs).symm
      · rw [if_neg e]
        have hn : ∀ r' o', Said.field r g0 f0 o ≠ .field r' g0 f o' := by
          intro r' o' h
          injection h with _ _ h
          exact e h.symm
        refine ⟨?_, (hf f).2.trans ⟨.inl, ?_⟩⟩
        · rw [(hf f).1]
          exact (meaning_other l _ g0 f hn).symm
        · rintro (x | ⟨r', o', x⟩)
          · exact x
          · exact absurd x (hn r' o')

theorem inv_fold {l : List Said} {m : SMap GroupC} (h : Inv l m) (l' : List Said) (hs : ∀ s ∈ l', InRange s) :
    Inv (l ++ l') (l'.foldl applyGroups m) := by
  induction l' generalizing l m with
  | nil => simpa using h
  | cons s l' ih =>
    have := ih (inv_step h s (hs s (by simp))) (fun t ht => hs t (by simp [ht]))
    simpa using this

theorem fold_groups (l : List Said) (p : Proc) :
    l.foldl applySaid p = { groups := l.foldl applyGroups p.groups, warnings := p.warnings ++ l.filterMap warningOf } := by
  induction l generalizing p with
  | nil => simp
  | cons s l ih =>
    rw [List.foldl_cons, ih]
    cases h : warningOf s <;> simp [applySaid, h, List.filterMap_cons]

theorem said_range {d : Doc} (h : Good d) (r : Option Str) : ∀ s ∈ said r d, InRange s := by
  intro s hs
  simp only [said, List.mem_flatMap] at hs
  obtain ⟨g, hg, i, hi, hs⟩ := hs
  have hgood := (h g hg).2 i hi
  cases i with
  | field n os =>
    simp only [Item.said, List.mem_map] at hs
    obtain ⟨o, ho, rfl⟩ := hs
    have := hgood o ho
    cases o <;> first | exact this | trivial
  | _ =>
    simp only [Item.said, List.mem_singleton] at hs
    subst hs
    trivial

theorem load_db (p : Proc) (l : List (Str × Doc)) (h : ∀ x ∈ l, Good x.2) :
    ∃ ms, loadDb p (texts l) = .ok ((l.flatMap fun x => said (some x.1) x.2).foldl applySaid p, ms) ∧ ∀ m ∈ ms, IsWarning m := by
  induction l generalizing p with
  | nil => exact ⟨[], rfl, by simp⟩
  | cons x l ih =>
    obtain ⟨ms, h1, h2⟩ := ih ((said (some x.1) x.2).foldl applySaid p) (fun y hy => h y (by simp [hy]))
    refine ⟨report x.1 ((said (some x.1) x.2).foldl applySaid p) none ++ ms, ?_, ?_⟩
    · show loadDb p ((x.1, text x.2) :: texts l) = _
      simp only [loadDb, parse_doc p (some x.1) x.2 (h x (by simp)), h1]
      rw [List.flatMap_cons, List.foldl_append]
    · intro m hm
      rw [List.mem_append] at hm
      rcases hm with hm | hm
      · simp only [report] at hm
        split at hm
        · simp at hm
        · rw [List.mem_singleton] at hm; subst hm; trivial
      · exact h2 m hm

theorem load_files (p : Proc) (l : List (Str × Doc)) (h : ∀ x ∈ l, Good x.2) :
    ∃ ms, loadFiles p (texts l) = .ok ((l.flatMap fun x => said none x.2).foldl applySaid p, ms) ∧ ∀ m ∈ ms, IsWarning m := by
  induction l generalizing p with
  | nil => exact ⟨[], rfl, by simp⟩
  | cons x l ih =>
    obtain ⟨ms, h1, h2⟩ := ih ((said none x.2).foldl applySaid p) (fun y hy => h y (by simp [hy]))
    refine ⟨report x.1 ((said none x.2).foldl applySaid p) none ++ ms, ?_, ?_⟩
    · show loadFiles p ((x.1, text x.2) :: texts l) = _
      simp only [loadFiles, parse_doc p none x.2 (h x (by simp)), h1]
      rw [List.flatMap_cons, List.foldl_append]
    · intro m hm
      rw [List.mem_append] at hm
      rcases hm with hm | hm
      · simp only [report] at hm
        split at hm
        · simp at hm
        · rw [List.mem_singleton] at hm; subst hm; trivial
      · exact h2 m hm

theorem inv_recorded {l : List Said} {m : SMap GroupC} (h : Inv l m) : Recorded l m := by
  intro g
  obtain ⟨h1, h2⟩ := h g
  refine ⟨h2, fun G hG => ?_⟩
  rw [hG] at h1
  obtain ⟨a, b, c⟩ := h1
  refine ⟨a, b, fun f => ⟨(c f).2, fun F hF => ?_⟩⟩
  have := (c f).1
  simp only [Option.getD_some] at this hF
  rw [hF] at this
  exact this

theorem inv_empty : Inv [] [] := by
  intro g
  refine ⟨⟨rfl, rfl, fun f => ⟨rfl, ?_⟩⟩, ?_⟩
  · simp [SMap.find?, MentionsField]
  · simp [SMap.find?, Mentions]

/-- C94: definitions which are as documented, in any number of records and files, are recorded as they say: for each field the
    last value of each option counts, wherever it is.  There are no messages but warnings, which are about unknown keys. -/
theorem C94_recorded (records files : List (Str × Doc)) (hr : ∀ x ∈ records, Good x.2) (hf : ∀ x ∈ files, Good x.2) :
    ∃ p ms q ms', loadDb {} (texts records) = .ok (p, ms) ∧ loadFiles p (texts files) = .ok (q, ms') ∧
      Recorded (allSaid records files) q.groups ∧ q.warnings = (allSaid records files).filterMap warningOf ∧ ∀ m ∈ ms ++ ms', IsWarning m := by
  obtain ⟨ms, h1, h2⟩ := load_db {} records hr
  obtain ⟨ms', h3, h4⟩ := load_files ((records.flatMap fun x => said (some x.1) x.2).foldl applySaid {}) files hf
  refine ⟨_, ms, _, ms', h1, h3, ?_, ?_, ?_⟩
  · rw [← List.foldl_append, fold_groups]
    have := inv_fold inv_empty (allSaid records files) (by
      intro s hs
      simp only [allSaid, List.mem_append, List.mem_flatMap] at hs
      rcases hs with ⟨x, hx, hs⟩ | ⟨x, hx, hs⟩
      · exact said_range (hr x hx) _ s hs
      · exact said_range (hf x hx) _ s hs)
    exact inv_recorded this
  · rw [← List.foldl_append, fold_groups]
    rfl
  · intro m hm
    rw [List.mem_append] at hm
    exact hm.elim (h2 m) (h4 m)

/-- the example of documentation/qgroup.rst: a group of two records -/
def exRecords : List (Str × Doc) :=
  [(bytes "rec:X", [(bytes "grp:name", [.field (bytes "X") [.channel (bytes "VAL")]])]),
   (bytes "rec:Y", [(bytes "grp:name", [.field (bytes "Y") [.channel (bytes "VAL"), .putorder 1]])])]

/-- and a file which changes one option of it -/
def exFiles : List (Str × Doc) :=
  [(bytes "f.json", [(bytes "grp:name", [.id (bytes "my:t"), .atomic false, .field (bytes "X") [.trigger (bytes "*"), .type .plain]])])]

example : (∀ x ∈ exRecords, Good x.2) ∧ (∀ x ∈ exFiles, Good x.2) ∧
    (fieldMeaning (allSaid exRecords exFiles) (bytes "grp:name") (bytes "X")).conf.channel = bytes "rec:X.VAL" ∧
    (fieldMeaning (allSaid exRecords exFiles) (bytes "grp:name") (bytes "X")).conf.type = .plain ∧
    (fieldMeaning (allSaid exRecords exFiles) (bytes "grp:name") (bytes "Y")).conf.putOrder = some 1 ∧
    lastOf (pickAtomic (bytes "grp:name")) (allSaid exRecords exFiles) = some false := by
  refine ⟨?_, ?_, by decide, by decide, by decide, by decide⟩
  · simp [exRecords, Good, Item.Good, Opt.Good, bytes]
  · simp [exFiles, Good, Item.Good, Opt.Good, bytes]

/-! ### warnings -/

/-- C94: about every key which is not known there is a message with the name of the record -/
theorem C94_warned (p : Proc) (records : List (Str × Doc)) (hr : ∀ x ∈ records, Good x.2) (q : Proc) (ms : List Msg)
    (h : loadDb p (texts records) = .ok (q, ms)) (x : Str × Doc) (hx : x ∈ records) (w : Str)
    (hw : w ∈ (said (some x.1) x.2).filterMap warningOf) : ∃ ws, Msg.warnings x.1 ws ∈ ms ∧ w ∈ ws := by
  induction records generalizing p ms with
  | nil => simp at hx
  | cons y records ih =>
    have e : loadDb p ((y.1, text y.2) :: texts records) = .ok (q, ms) := h
    obtain ⟨ms', h1, -⟩ := load_db ((said (some y.1) y.2).foldl applySaid p) records (fun z hz => hr z (by simp [hz]))
    simp only [loadDb, parse_doc p (some y.1) y.2 (hr y (by simp)), h1] at e
    injection e with e
    injection e with e1 e2
    rcases List.mem_cons.1 hx with rfl | hx
    · have hm : w ∈ ((said (some x.1) x.2).foldl applySaid p).warnings := by
        rw [fold_groups]; exact List.mem_append.2 (.inr hw)
      refine ⟨((said (some x.1) x.2).foldl applySaid p).warnings, ?_, hm⟩
      rw [← e2]
      have : ((said (some x.1) x.2).foldl applySaid p).warnings ≠ [] := by
        intro e; rw [e] at hm; simp at hm
      simp [report, this]
    · obtain ⟨ws, a, b⟩ := ih _ (fun z hz => hr z (by simp [hz])) _ (by rw [h1, e1]) hx
      exact ⟨ws, by rw [← e2]; exact List.mem_append.2 (.inr a), b⟩

/-- the warnings of the first record are those about its own keys -/
theorem C94_warned_first (record : Str) (d : Doc) (h : Good d) :
    loadDb {} (texts [(record, d)]) = .ok ((said (some record) d).foldl applySaid {},
      if (said (some record) d).filterMap warningOf = [] then [] else [.warnings record ((said (some record) d).filterMap warningOf)]) := by
  show loadDb {} [(record, text d)] = _
  simp only [loadDb, parse_doc {} (some record) d h, report, List.append_nil]
  rw [fold_groups]
  rfl

example : Good [(bytes "g", [.field (bytes "f") [.channel (bytes "VAL"), .other (bytes "+puttorder") (.int 1)]])] := by
  simp [Good, Item.Good, Opt.Good, bytes]

/-- C94 fails: warnings are repeated for every record which follows, though there is nothing wrong with it -/
theorem C94_warned_again :
    ∃ (a b : Str) (d e : Doc) (q : Proc) (w : Str), Good d ∧ Good e ∧ (said (some b) e).filterMap warningOf = [] ∧
      loadDb {} (texts [(a, d), (b, e)]) = .ok (q, [.warnings a [w], .warnings b [w]]) := by
  refine ⟨bytes "a", bytes "b", [(bytes "g", [.other (bytes "+atomik") (.bool true)])],
    [(bytes "h", [.field (bytes "f") [.channel (bytes "VAL")]])], _, bytes "+atomik", ?_, ?_, by decide, rfl⟩
  · simp [Good, Item.Good, bytes]
  · simp [Good, Item.Good, Opt.Good, bytes]

/-! ### definitions which are not as documented -/

theorem run_never (c : Ctx) (es : List Ev) (c' : Ctx) (b : Bool) (h : run c es = .ok (c', b)) : b = false := by
  induction es generalizing c with
  | nil => injection h with h; injection h with _ h; exact h.symm
  | cons e es ih =>
    simp only [run] at h
    cases hc : callback c e with
    | ok r =>
      rw [hc] at h
      have hn : (yajlProcess r).2 ≠ 0 := by
        obtain ⟨c1, x⟩ := r
        cases x <;> simp [yajlProcess]
      simp only [if_neg hn] at h
      exact ih _ h
    | throws w => rw [hc] at h; exact nomatch h
    | ub => rw [hc] at h; exact nomatch h

/-- C94 fails: no text which is JSON is ever rejected, whatever it says.  (The callbacks return -1 for an exception;
    yajl stops at zero only.) -/
theorem C94_silent (p : Proc) (r : Option Str) (t : Text) (ht : t.whole = true) (q : Proc) (e : Option String) (h : parse p r t = .ok (q, e)) :
    e = none := by
  unfold parse at h
  cases hr : run { pre := prefixOf r, proc := p } t.evs with
  | ok x =>
    obtain ⟨c, b⟩ := x
    have := run_never _ _ _ _ hr
    subst this
    simp only [hr] at h
    injection h with h
    injection h with _ h
    rw [if_pos ht] at h
    exact h.symm
  | throws w => simp only [hr] at h; exact nomatch h
  | ub => simp only [hr] at h; exact nomatch h

/-- `"g":{"f":{` … `}}` with this between -/
def inField (g f : Str) (es : List Ev) : Text :=
  { evs := [.startMap, .key g, .startMap, .key f, .startMap] ++ es ++ [.endMap, .endMap, .endMap] }

/-- for instance `{"g":{"f":{"+channel":null, "+putorder":"first", "+type":"plain"}}}`: there is no message, and no channel and no order -/
example : parse {} none (inField (bytes "g") (bytes "f")
      [.key (bytes "+channel"), .scalar .null, .key (bytes "+putorder"), .scalar (.str (bytes "first")), .key (bytes "+type"), .scalar (.str (bytes "plain"))])
    = .ok ({ groups := [(bytes "g", { fields := [(bytes "f", { conf := { type := .plain } })] })] }, none) := by decide

/-- C94 fails: the IOC is ended by an assertion when the last value of a field is an array (without numbers or texts in it), whatever its key -/
theorem C94_abort_array (p : Proc) (r : Option Str) (g f k : Str) (hg : g ≠ []) (hk : k ≠ []) : parse p r (inField g f [.key k]) = .ub := by
  simp [parse, inField, run, callback, onStart, onKey, onEnd, yajlProcess, hg, hk]

/-- the same for an object -/
theorem C94_abort_object (p : Proc) (r : Option Str) (g f k : Str) (hg : g ≠ []) (hk : k ≠ []) :
    parse p r (inField g f [.key k, .startMap, .endMap]) = .ub := by
  simp [parse, inField, run, callback, onStart, onKey, onEnd, yajlProcess, hg, hk]

/-- the same for an order which is no number -/
theorem C94_abort_order (p : Proc) (r : Option Str) (g f s : Str) (hg : g ≠ []) (hs : parseI64 s = none) :
    parse p r (inField g f [.key (bytes "+putorder"), .scalar (.str s)]) = .ub := by
  have e : bytes "+putorder" = kPutorder := rfl
  have n : kPutorder ≠ [] := by decide
  have a : kPutorder ≠ kType := by decide
  have b : kPutorder ≠ kChannel := by decide
  have d : kPutorder ≠ kId := by decide
  have f' : kPutorder ≠ kTrigger := by decide
  simp [parse, inField, run, callback, onStart, onKey, onEnd, yajlProcess, hg, e, n, Pvxs.GJson.assign, assignField, a, b, d, f', assignOrder, asInt, hs,
    Ctx.withField, Ctx.withGroup]

/-- and for a channel, trigger, or mapping which is null -/
theorem C94_abort_null (p : Proc) (r : Option Str) (g f : Str) (hg : g ≠ []) :
    parse p r (inField g f [.key (bytes "+channel"), .scalar .null]) = .ub ∧
    parse p r (inField g f [.key (bytes "+trigger"), .scalar .null]) = .ub ∧
    parse p r (inField g f [.key (bytes "+type"), .scalar .null]) = .ub := by
  have e : bytes "+channel" = kChannel := rfl
  have e2 : bytes "+trigger" = kTrigger := rfl
  have e3 : bytes "+type" = kType := rfl
  have n : kChannel ≠ [] := by decide
  have n2 : kTrigger ≠ [] := by decide
  have n3 : kType ≠ [] := by decide
  have a : kChannel ≠ kType := by decide
  have b : kTrigger ≠ kType := by decide
  have d : kTrigger ≠ kChannel := by decide
  have d' : kTrigger ≠ kId := by decide
  refine ⟨?_, ?_, ?_⟩ <;>
  simp [parse, inField, run, callback, onStart, onKey, onEnd, yajlProcess, hg, e, e2, e3, n, n2, n3, Pvxs.GJson.assign, assignField, a, b, d, d', assignText,
    assignType, asText, Ctx.withField, Ctx.withGroup]

example : parseI64 (bytes "first") = none := by decide

/-- C94 fails: a group without a name is not rejected, its fields become those of the group before it -/
theorem C94_wrong_group :
    ∃ q : Proc, parse {} none { evs := [.startMap,
          .key (bytes "a"), .startMap, .key (bytes "x"), .startMap, .key kChannel, .scalar (.str (bytes "r1")), .endMap, .endMap,
          .key [], .startMap, .key (bytes "y"), .startMap, .key kChannel, .scalar (.str (bytes "r2")), .endMap, .endMap, .endMap] } = .ok (q, none) ∧
      q.groups = [(bytes "a", { fields := [(bytes "x", { conf := { channel := bytes "r1" } }), (bytes "y", { conf := { channel := bytes "r2" } })] })] :=
  ⟨_, rfl, by decide⟩

/-- C94 fails: after an object which is too deep the rest is dropped without a message, here the group `h` -/
theorem C94_rest_lost :
    parse {} none { evs := [.startMap,
          .key (bytes "g"), .startMap, .key (bytes "x"), .startMap, .key [], .startMap, .endMap, .endMap, .endMap,
          .key (bytes "h"), .startMap, .key (bytes "y"), .startMap, .key kChannel, .scalar (.str (bytes "r2")), .endMap, .endMap, .endMap] }
      = .ok ({}, none) := by decide

/-- C94 fails: a field which has nothing, not even the channel it needs, is dropped without a message -/
theorem C94_empty_field (p : Proc) (r : Option Str) (g f : Str) (hg : g ≠ []) : parse p r (text [(g, [.field f []])]) = .ok (p, none) := by
  have h : Good [(g, [.field f []])] := by simp [Good, Item.Good, hg]
  rw [parse_doc p r _ h]
  rfl

/-- C94 fails: the files after one which is no JSON are not read (and the exception leaves a hook of the IOC) -/
theorem C94_bad_file (p : Proc) (file : Str) (t : Text) (ht : t.whole = false) (more : List (Str × Text)) (c : Ctx) (b : Bool)
    (hr : run { pre := [], proc := p } t.evs = .ok (c, b)) : ∃ m, loadFiles p ((file, t) :: more) = .ok (c.proc, [m]) ∧ ¬ IsWarning m := by
  have := run_never _ _ _ _ hr
  subst this
  refine ⟨.error file "Error on line", ?_, id⟩
  simp [loadFiles, parse, prefixOf, hr, ht]

example : run { pre := [], proc := {} } [Ev.startMap] = .ok ({ pre := [], proc := {}, depth := 1 }, false) := rfl

end Pvxs.Props.GJson
