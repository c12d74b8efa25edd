import Verif.Spec.PutBuild
import Verif.Lemmas.PVRequest
import Verif.Lemmas.SMap
import Verif.Lemmas.Assign
import Verif.Props.Lookup
/-! Property C79 -/
namespace Pvxs.Props.PutBuild
open Pvxs Pvxs.PutBuild Pvxs.Spec Pvxs.Spec.PutBuild

/-! ### names -/

theorem size_pos (d : FieldDesc) : 0 < d.size := by
  unfold FieldDesc.size; split <;> omega

theorem descends_lt {t : List FieldDesc} (ht : ∀ i d, t[i]? = some d → NodeOK t i d) {i j : Nat} {ps : List Str} (h : Descends t i ps j) :
    ∀ d, t[i]? = some d → i ≤ j ∧ j < i + d.size := by
  induction h with
  | here i => intro d hd; have := size_pos d; omega
  | member i d name off more j hd hc hm _ ih =>
    intro d' hd'
    rw [hd] at hd'; cases hd'
    obtain ⟨h0, c, h1, _, h2⟩ := (ht i d hd).child hc name off hm
    have := ih c h1
    omega

theorem path_unique {t : List FieldDesc} (ht : ∀ i d, t[i]? = some d → NodeOK t i d) {i j : Nat} {ps : List Str} (h : Descends t i ps j) :
    ∀ qs, Descends t i qs j → ps = qs := by
  induction h with
  | here i =>
    intro qs h
    cases h with
    | here => rfl
    | member _ d name off more _ hd hc hm h =>
      obtain ⟨h0, c, h1, _, h2⟩ := (ht i d hd).child hc name off hm
      have := descends_lt ht h c h1
      omega
  | member i d name off more j hd hc hm hd1 ih =>
    intro qs h
    obtain ⟨h0, c, h1, _, h2⟩ := (ht i d hd).child hc name off hm
    have b1 := descends_lt ht hd1 c h1
    cases h with
    | here => omega
    | member _ d' name' off' more' _ hd' hc' hm' h =>
      rw [hd] at hd'; cases hd'
      obtain ⟨h0', c', h1', _, h2'⟩ := (ht i d hd).child hc name' off' hm'
      have b2 := descends_lt ht h c' h1'
      obtain ⟨a, ha⟩ := List.mem_iff_getElem?.mp hm
      obtain ⟨b, hb⟩ := List.mem_iff_getElem?.mp hm'
      rcases Nat.lt_trichotomy a b with hlt | heq | hlt
      · obtain ⟨e, he, hle⟩ := (ht i d hd).disjoint hc a b _ _ _ _ ha hb hlt
        rw [h1] at he; cases he
        omega
      · subst heq
        rw [ha] at hb; cases hb
        rw [ih _ h]
      · obtain ⟨e, he, hle⟩ := (ht i d hd).disjoint hc b a _ _ _ _ hb ha hlt
        rw [h1'] at he; cases he
        omega

theorem takeWhile_all {α : Type} (p : α → Bool) : ∀ l : List α, (∀ x ∈ l, p x = true) → l.takeWhile p = l
  | [], _ => rfl
  | a :: l, h => by rw [List.takeWhile_cons, if_pos (h a (by simp)), takeWhile_all p l (fun x hx => h x (by simp [hx]))]

theorem dropWhile_all {α : Type} (p : α → Bool) : ∀ l : List α, (∀ x ∈ l, p x = true) → l.dropWhile p = []
  | [], _ => rfl
  | a :: l, h => by rw [List.dropWhile_cons, if_pos (h a (by simp)), dropWhile_all p l (fun x hx => h x (by simp [hx]))]

theorem plain_any {name : Str} (h : Plain name) : name.any endsName = false := by
  rw [List.any_eq_false]
  intro c hc
  have := h c hc
  simp [endsName, this.1, this.2.1, this.2.2]

theorem fieldOf_spec {t : List FieldDesc} (hu : Usable t) {name : Str} (hp : Plain name) :
    (∃ k, fieldOf t name = .ok (some k) ∧ k < t.length ∧ Names t name k) ∨ (fieldOf t name = .ok none ∧ ∀ k, ¬ Names t name k) := by
  have hpos := Lkp.usable_ne hu
  unfold fieldOf
  by_cases hn : name = []
  · exact Or.inl ⟨0, by rw [if_pos hn], hpos, Or.inl ⟨hn, rfl⟩⟩
  · rw [if_neg hn, if_neg (by rw [plain_any hp]; simp)]
    obtain ⟨m, rfl, hf⟩ := usable_flat hu
    cases ht : flat m with
    | nil => rw [ht] at hpos; simp at hpos
    | cons d ds =>
      have hd : (flat m)[0]? = some d := by rw [ht]; rfl
      dsimp only
      by_cases hs : d.code = .Struct
      · rw [if_pos hs]
        have key := fun o => mlookup_descends hf hd hs name o
        cases hk : d.mlookup.find? name with
        | none =>
          refine Or.inr ⟨rfl, fun k hk' => ?_⟩
          rcases hk' with ⟨h, _⟩ | ⟨_, ps, h1, h2, h3⟩
          · exact hn h
          · have := (key k).mpr ⟨ps, h1, h2, by rwa [Nat.zero_add, ht]⟩
            rw [hk] at this; cases this
        | some o =>
          obtain ⟨ps, h1, h2, h3⟩ := (key o).mp hk
          rw [Nat.zero_add] at h3
          refine Or.inl ⟨o, rfl, ?_, Or.inr ⟨hn, ps, h1, h2, by rwa [ht] at h3⟩⟩
          rw [← ht]
          exact (descends_inside hf (by rw [ht]; simp) h3).1
      · rw [if_neg hs]
        refine Or.inr ⟨rfl, fun k hk' => ?_⟩
        rcases hk' with ⟨h, _⟩ | ⟨_, ps, h1, h2, h3⟩
        · exact hn h
        · obtain ⟨d', h4, h5, _⟩ := descends_struct h1 h3
          simp at h4; subst h4; exact hs h5

theorem names_fun {t : List FieldDesc} (hu : Usable t) {name : Str} (hp : Plain name) {k k' : Nat} (h : Names t name k) (h' : Names t name k') : k = k' := by
  rcases h with ⟨h1, h2⟩ | ⟨h1, ps, h2, h3, h4⟩
  · rcases h' with ⟨_, h2'⟩ | ⟨h1', _⟩
    · rw [h2, h2']
    · exact absurd h1 h1'
  · rcases h' with ⟨h1', h2'⟩ | ⟨h1', qs, h2', h3', h4'⟩
    · exact absurd h1' h1
    · obtain ⟨m, rfl, hf⟩ := usable_flat hu
      obtain ⟨d, hd, hs, _⟩ := descends_struct h2 h4
      have a := (mlookup_descends hf hd hs name k).mpr ⟨ps, h2, h3, by rwa [Nat.zero_add]⟩
      have b := (mlookup_descends hf hd hs name k').mpr ⟨qs, h2', h3', by rwa [Nat.zero_add]⟩
      rw [a] at b; exact Option.some.inj b

theorem names_inj {t : List FieldDesc} (hu : Usable t) {n n' : Str} {k : Nat} (h : Names t n k) (h' : Names t n' k) : n = n' := by
  obtain ⟨m, rfl, hf⟩ := usable_flat hu
  have ht := nodeOK_flat m hf
  rcases h with ⟨h1, h2⟩ | ⟨h1, ps, h2, h3, h4⟩
  · rcases h' with ⟨h1', h2'⟩ | ⟨h1', ps, h2', h3, h4⟩
    · rw [h1, h1']
    · have := descends_pos hf h2' h4; omega
  · rcases h' with ⟨h1', h2'⟩ | ⟨h1', qs, h2', h3', h4'⟩
    · have := descends_pos hf h2 h4; omega
    · rw [h3, h3', path_unique ht h4 _ h4']

/-- the model's way to find the field is the lookup of C18 -/
theorem fieldOf_index {t : List FieldDesc} (hu : Usable t) (modify : Bool) (cs : List Cell) {name : Str} (hp : Plain name) :
    ∃ r, fieldOf t name = .ok r ∧ index modify ⟨t, cs, 0⟩ name = .ok (r.map fun k => ⟨t, cs, k⟩) := by
  have hpos := Lkp.usable_ne hu
  cases ht : t with
  | nil => rw [ht] at hpos; simp at hpos
  | cons d ds =>
    cases name with
    | nil => exact ⟨some 0, rfl, by unfold index; rw [traverse]; rfl⟩
    | cons c s =>
      have hpl := hp
      have ha := plain_any hp
      have hw : (c :: s).takeWhile (fun c => !endsName c) = c :: s := by
        refine takeWhile_all _ _ (fun x hx => ?_)
        have := List.any_eq_false.mp ha x hx
        simpa using this
      have hdw : (c :: s).dropWhile (fun c => !endsName c) = [] := by
        refine dropWhile_all _ _ (fun x hx => ?_)
        have := List.any_eq_false.mp ha x hx
        simpa using this
      have hc := hp c (by simp)
      have hc1 : c ≠ 0x3c := hc.1
      have hc2 : c ≠ 0x2d := hc.2.2
      have hc3 : c ≠ 0x5b := hc.2.1
      unfold fieldOf
      rw [if_neg (by simp), if_neg (by rw [ha]; simp)]
      dsimp only
      unfold index
      rw [traverse]
      have hstep : stepLookup modify true false (c :: s) ⟨d :: ds, cs, 0⟩ =
          if d.code = .Struct then (match d.mlookup.find? (c :: s) with
            | some o => .go false [] ⟨d :: ds, cs, 0 + o⟩
            | none => .null) else .null := by
        unfold stepLookup
        simp only [List.getElem?_cons_zero]
        split
        · rename_i r heq; cases heq; exact absurd rfl hc1
        · by_cases hs : d.code = .Struct
          · rw [if_pos hs, if_pos hs]
            unfold stepStruct
            simp only [Bool.false_eq_true, false_and, ↓reduceIte]
            rw [hw, hdw]
            rfl
          · rw [if_neg hs, if_neg hs]
            split
            · split
              · rename_i heq; cases heq; exact absurd rfl hc2
              · rfl
            · split
              · unfold stepIndex splitIndex
                split
                · rfl
                · rename_i h; revert h; split
                  · rename_i heq; cases heq; exact absurd rfl hc3
                  · simp
              · rfl
      rw [hstep]
      by_cases hs : d.code = .Struct
      · rw [if_pos hs, if_pos hs]
        cases d.mlookup.find? (c :: s) with
        | none => exact ⟨none, rfl, rfl⟩
        | some o =>
          refine ⟨some o, rfl, ?_⟩
          have hadv : advances (c :: s) [] ⟨d :: ds, cs, 0⟩ ⟨d :: ds, cs, 0 + o⟩ = true := by simp [advances]
          simp only [hadv, ↓reduceDIte]
          rw [traverse]
          simp
      · rw [if_neg hs, if_neg hs]; exact ⟨none, rfl, rfl⟩

/-! ### building -/

/-- a pair of the map as an argument -/
def argOf (p : Str × (Val × Bool)) : Arg := ⟨p.1, p.2.1, p.2.2⟩

theorem converted_fun {env : CopyEnv} {rec : Assign} {d : FieldDesc} {v : Val} {r r' : Res Datum} (h : Converted env rec d v r) (h' : Converted env rec d v r') : r = r' := by
  obtain ⟨sd, st, m, x, cs, rfl, _, h1⟩ := h
  obtain ⟨sd', st', m', x', cs', e, _, h1'⟩ := h'
  cases e
  rw [← h1, ← h1']

theorem copyFrom_of {env : CopyEnv} {rec : Assign} {d : FieldDesc} {v : Val} {r : Res Datum} (h : Converted env rec d v r) :
    copyFrom env rec d (initDatum d.code) v = r := by
  obtain ⟨sd, st, m, x, cs, rfl, hs, h1⟩ := h
  simp only [copyFrom, if_neg hs, h1]

theorem fits_fun {env : CopyEnv} {rec : Assign} {t : List FieldDesc} (hu : Usable t) {a : Arg} (hp : Plain a.name) {k k' : Nat} {x x' : Datum}
    (h : Fits env rec t a k x) (h' : Fits env rec t a k' x') : k = k' ∧ x = x' := by
  obtain ⟨h1, d, h2, h3⟩ := h
  obtain ⟨h1', d', h2', h3'⟩ := h'
  have := names_fun hu hp h1 h1'
  subst this
  rw [h2] at h2'; cases h2'
  have := converted_fun h3 h3'
  cases this
  exact ⟨rfl, rfl⟩

theorem not_both {env : CopyEnv} {rec : Assign} {t : List FieldDesc} (hu : Usable t) {a : Arg} (hp : Plain a.name) {k : Nat} {x : Datum}
    (h : Fits env rec t a k x) (h' : Misfits env rec t a) : False := by
  obtain ⟨h1, d, h2, h3⟩ := h
  rcases h' with h' | ⟨k', d', h1', h2', h3'⟩
  · exact h' k h1
  · have := names_fun hu hp h1 h1'
    subst this
    rw [h2] at h2'; cases h2'
    have := converted_fun h3 h3'
    cases this

/-- field `k` is as it is in a new value -/
def Fresh (t : List FieldDesc) (cs : List Cell) (k : Nat) : Prop := ∀ d, t[k]? = some d → cs[k]? = some (.mk false (initDatum d.code))

theorem one_fits {env : CopyEnv} {rec : Assign} {t : List FieldDesc} (hu : Usable t) {p : Str × (Val × Bool)} (hp : Plain p.1) {k : Nat} {x : Datum}
    (h : Fits env rec t (argOf p) k x) {cs : List Cell} (hc : Fresh t cs k) : buildOne env rec t cs p = .ok (storeCell cs k x) := by
  obtain ⟨h1, d, h2, h3⟩ := h
  rcases fieldOf_spec hu hp with ⟨k', e, _, hn⟩ | ⟨_, hn⟩
  · have := names_fun hu hp h1 hn
    subst this
    unfold buildOne
    rw [e]
    simp only [Res.bind_ok, h2]
    have : datumAt cs k = initDatum d.code := by unfold datumAt; rw [hc d h2]; rfl
    have h3' : copyFrom env rec d (initDatum d.code) p.2.1 = .ok x := copyFrom_of h3
    rw [this, h3']
    rfl
  · exact absurd h1 (hn k)

theorem one_misfits {env : CopyEnv} {rec : Assign} {t : List FieldDesc} (hu : Usable t) {p : Str × (Val × Bool)} (hp : Plain p.1)
    (h : Misfits env rec t (argOf p)) {cs : List Cell} (hc : ∀ k, Names t p.1 k → Fresh t cs k) :
    (p.2.2 = false → buildOne env rec t cs p = .ok cs) ∧
    (p.2.2 = true → ∃ w, (w = "NoConvert" ∨ w = "runtime_error") ∧ buildOne env rec t cs p = .throws w) := by
  rcases fieldOf_spec hu hp with ⟨k, e, _, hn⟩ | ⟨e, hn⟩
  · rcases h with h | ⟨k', d, h1, h2, h3⟩
    · exact absurd hn (h k)
    · have := names_fun hu hp hn h1
      subst this
      have hd : datumAt cs k = initDatum d.code := by unfold datumAt; rw [hc k hn d h2]; rfl
      unfold buildOne
      rw [e]
      simp only [Res.bind_ok, h2, hd]
      have h3' : copyFrom env rec d (initDatum d.code) p.2.1 = .throws "NoConvert" := copyFrom_of h3
      rw [h3']
      constructor
      · intro hr; simp [stored, hr]
      · intro hr; exact ⟨_, Or.inl rfl, by simp [stored, hr]⟩
  · unfold buildOne
    rw [e]
    constructor
    · intro hr; simp [hr]
    · intro hr; exact ⟨_, Or.inr rfl, by simp [hr]⟩

theorem storeCell_get {cs : List Cell} {k : Nat} (hk : k < cs.length) (x : Datum) (j : Nat) :
    (storeCell cs k x)[j]? = if j = k then some (.mk true x) else cs[j]? := by
  unfold storeCell
  rw [List.getElem?_set]
  by_cases h : j = k
  · subst h; simp [hk]
  · rw [if_neg (fun e => h e.symm), if_neg h]

theorem names_lt {t : List FieldDesc} (hu : Usable t) {n : Str} {k : Nat} (h : Names t n k) : k < t.length := by
  rcases h with ⟨_, rfl⟩ | ⟨_, ps, _, _, h⟩
  · exact Lkp.usable_ne hu
  · obtain ⟨m, rfl, hf⟩ := usable_flat hu
    exact (descends_inside hf (Lkp.usable_ne hu) h).1

theorem fresh_store {t : List FieldDesc} (hu : Usable t) {cs : List Cell} (hl : cs.length = t.length) {n n' : Str} (hne : n ≠ n') {k k' : Nat} (h : Names t n k)
    (h' : Names t n' k') (x : Datum) (hc : Fresh t cs k') : Fresh t (storeCell cs k x) k' := by
  intro d hd
  rw [storeCell_get (by rw [hl]; exact names_lt hu h)]
  rw [if_neg (fun e => hne (by subst e; exact names_inj hu h h'))]
  exact hc d hd

theorem each_ok {env : CopyEnv} {rec : Assign} {t : List FieldDesc} (hu : Usable t) : ∀ (ps : List (Str × (Val × Bool))) (cs : List Cell), cs.length = t.length →
    (ps.map (·.1)).Nodup → (∀ p ∈ ps, Plain p.1) →
    (∀ p ∈ ps, (∃ k x, Fits env rec t (argOf p) k x) ∨ (Misfits env rec t (argOf p) ∧ p.2.2 = false)) →
    (∀ p ∈ ps, ∀ k, Names t p.1 k → Fresh t cs k) →
    ∃ cs', buildEach env rec t ps cs = .ok cs' ∧ cs'.length = t.length ∧ (∀ p ∈ ps, ∀ k x, Fits env rec t (argOf p) k x → cs'[k]? = some (.mk true x)) ∧
      ∀ k, (∀ p ∈ ps, ∀ x, ¬ Fits env rec t (argOf p) k x) → cs'[k]? = cs[k]?
  | [], cs, hl, _, _, _, _ => ⟨cs, rfl, hl, by simp, by simp⟩
  | p :: ps, cs, hl, hn, hp, hf, hc => by
    simp only [List.map_cons, List.nodup_cons] at hn
    have hpp := hp p (by simp)
    have hdiff : ∀ q ∈ ps, p.1 ≠ q.1 := fun q hq e => hn.1 (by rw [e]; exact List.mem_map_of_mem hq)
    rcases hf p (by simp) with ⟨k, x, hk⟩ | ⟨hm, hr⟩
    · have hkl : k < cs.length := by rw [hl]; exact names_lt hu hk.1
      obtain ⟨cs', e, l', s1, s2⟩ := each_ok (env := env) (rec := rec) hu ps (storeCell cs k x) (by simp [storeCell, hl]) hn.2 (fun q hq => hp q (by simp [hq])) (fun q hq => hf q (by simp [hq]))
        (fun q hq k' hk' => fresh_store hu hl (hdiff q hq) hk.1 hk' x (hc q (by simp [hq]) k' hk'))
      refine ⟨cs', ?_, l', ?_, ?_⟩
      · simp only [buildEach, one_fits hu hpp hk (hc p (by simp) k hk.1), Res.bind_ok, e]
      · intro q hq k' x' hq'
        rcases List.mem_cons.mp hq with rfl | hq
        · obtain ⟨rfl, rfl⟩ := fits_fun hu hpp hk hq'
          rw [s2 k (fun r hr y hy => hdiff r hr (names_inj hu hk.1 hy.1)), storeCell_get hkl, if_pos rfl]
        · exact s1 q hq k' x' hq'
      · intro k' hk'
        rw [s2 k' (fun q hq y => hk' q (by simp [hq]) y), storeCell_get hkl, if_neg]
        rintro rfl
        exact hk' p (by simp) x hk
    · obtain ⟨cs', e, l', s1, s2⟩ := each_ok (env := env) (rec := rec) hu ps cs hl hn.2 (fun q hq => hp q (by simp [hq])) (fun q hq => hf q (by simp [hq])) (fun q hq => hc q (by simp [hq]))
      refine ⟨cs', ?_, l', ?_, ?_⟩
      · simp only [buildEach, (one_misfits hu hpp hm (hc p (by simp))).1 hr, Res.bind_ok, e]
      · intro q hq k' x' hq'
        rcases List.mem_cons.mp hq with rfl | hq
        · exact (not_both hu hpp hq' hm).elim
        · exact s1 q hq k' x' hq'
      · intro k' hk'
        exact s2 k' (fun q hq y => hk' q (by simp [hq]) y)

theorem each_bad {env : CopyEnv} {rec : Assign} {t : List FieldDesc} (hu : Usable t) : ∀ (ps : List (Str × (Val × Bool))) (cs : List Cell), cs.length = t.length →
    (ps.map (·.1)).Nodup → (∀ p ∈ ps, Plain p.1) → (∀ p ∈ ps, (∃ k x, Fits env rec t (argOf p) k x) ∨ Misfits env rec t (argOf p)) →
    (∀ p ∈ ps, ∀ k, Names t p.1 k → Fresh t cs k) → (∃ p ∈ ps, Misfits env rec t (argOf p) ∧ p.2.2 = true) →
    ∃ w, (w = "NoConvert" ∨ w = "runtime_error") ∧ buildEach env rec t ps cs = .throws w
  | [], _, _, _, _, _, _, ⟨p, hp, _⟩ => absurd hp List.not_mem_nil
  | p :: ps, cs, hl, hn, hp, hf, hc, ⟨b, hb, hbad⟩ => by
    simp only [List.map_cons, List.nodup_cons] at hn
    have hpp := hp p (by simp)
    have hdiff : ∀ q ∈ ps, p.1 ≠ q.1 := fun q hq e => hn.1 (by rw [e]; exact List.mem_map_of_mem hq)
    rcases hf p (by simp) with ⟨k, x, hk⟩ | hm
    · have hb' : b ∈ ps := by
        rcases List.mem_cons.mp hb with rfl | h
        · exact (not_both hu hpp hk hbad.1).elim
        · exact h
      obtain ⟨w, hw, e⟩ := each_bad (env := env) (rec := rec) hu ps (storeCell cs k x) (by simp [storeCell, hl]) hn.2 (fun q hq => hp q (by simp [hq])) (fun q hq => hf q (by simp [hq]))
        (fun q hq k' hk' => fresh_store hu hl (hdiff q hq) hk.1 hk' x (hc q (by simp [hq]) k' hk')) ⟨b, hb', hbad⟩
      exact ⟨w, hw, by simp only [buildEach, one_fits hu hpp hk (hc p (by simp) k hk.1), Res.bind_ok, e]⟩
    · cases hr : p.2.2 with
      | true =>
        obtain ⟨w, hw, e⟩ := (one_misfits hu hpp hm (hc p (by simp))).2 hr
        exact ⟨w, hw, by simp only [buildEach, e, Res.bind_throws]⟩
      | false =>
        have hb' : b ∈ ps := by
          rcases List.mem_cons.mp hb with rfl | h
          · rw [hr] at hbad; exact (nomatch hbad.2)
          · exact h
        obtain ⟨w, hw, e⟩ := each_bad (env := env) (rec := rec) hu ps cs hl hn.2 (fun q hq => hp q (by simp [hq])) (fun q hq => hf q (by simp [hq])) (fun q hq => hc q (by simp [hq])) ⟨b, hb', hbad⟩
        exact ⟨w, hw, by simp only [buildEach, (one_misfits hu hpp hm (hc p (by simp))).1 hr, Res.bind_ok, e]⟩

/-! ### set() -/

theorem setAll_spec : ∀ (as : List Arg) (s : Args), s.values.Sorted → (as.map (·.name)).Nodup → (∀ a ∈ as, a.name ∉ s.values.keys) →
    ∃ s', setAll s as = .ok s' ∧ s'.values.Sorted ∧ s'.names = s.names ++ as.map (·.name) ∧
      ∀ p, p ∈ s'.values ↔ p ∈ s.values ∨ ∃ a ∈ as, p = (a.name, (a.value, a.required))
  | [], s, hs, _, _ => ⟨s, rfl, hs, by simp, by simp⟩
  | a :: as, s, hs, hn, hk => by
    simp only [List.map_cons, List.nodup_cons] at hn
    have hf : s.values.find? a.name = none := (SMap.find?_none hs).mpr (hk a (by simp))
    have hk' : ∀ b ∈ as, b.name ∉ (s.values.insert a.name (a.value, a.required)).keys := by
      intro b hb h
      obtain ⟨v, hv⟩ := SMap.mem_keys.mp h
      rcases (SMap.mem_insert hs _).mp hv with h | ⟨_, h⟩
      · have e : b.name = a.name := congrArg Prod.fst h
        exact hn.1 (by rw [← e]; exact List.mem_map_of_mem hb)
      · exact hk b (by simp [hb]) (SMap.mem_keys.mpr ⟨v, h⟩)
    obtain ⟨s', e, h1, h2, h3⟩ := setAll_spec as ⟨s.values.insert a.name (a.value, a.required), s.names ++ [a.name]⟩ (SMap.sorted_insert hs) hn.2 hk'
    refine ⟨s', ?_, h1, by rw [h2]; simp, fun p => ?_⟩
    · simp only [setAll, PutBuild.set, hf, Option.isSome_none, Bool.false_eq_true, ↓reduceIte, Res.bind_ok]
      exact e
    · rw [h3]
      dsimp only
      rw [SMap.mem_insert hs]
      constructor
      · rintro ((h | h) | ⟨b, hb, h⟩)
        · exact Or.inr ⟨a, by simp, h⟩
        · exact Or.inl h.2
        · exact Or.inr ⟨b, by simp [hb], h⟩
      · rintro (h | ⟨b, hb, h⟩)
        · refine Or.inl (Or.inr ⟨fun e => hk a (by simp) (SMap.mem_keys.mpr ⟨p.2, by rw [← e]; exact h⟩), h⟩)
        · rcases List.mem_cons.mp hb with rfl | hb
          · exact Or.inl (Or.inl h)
          · exact Or.inr ⟨b, hb, h⟩

/-! ### C79 -/

theorem newValue_usable {t : List FieldDesc} (hu : Usable t) : newValue t = .ok (.mk t (t.map fun d => .mk false (initDatum d.code))) := by
  obtain ⟨m, rfl, hf⟩ := usable_flat hu
  have hok := hu.2
  have hne := flat_ne_nil m
  unfold newValue at hok ⊢
  cases hc : checkNew (flat m) with
  | ok a =>
    simp only [Res.bind_ok]
    cases ht : flat m with
    | nil => exact absurd ht hne
    | cons d ds => simp only [← ht, nodesOf_flat m hf]
  | throws w => rw [hc] at hok; cases hok
  | ub => rw [hc] at hok; cases hok

theorem fresh_new (t : List FieldDesc) (k : Nat) : Fresh t (t.map fun d => .mk false (initDatum d.code)) k := by
  intro d hd
  rw [List.getElem?_map, hd]
  rfl

/-- what set() keeps of the calls -/
theorem kept {as : List Arg} {s : Args} (h : ∀ p, p ∈ s.values ↔ p ∈ ([] : SMap (Val × Bool)) ∨ ∃ a ∈ as, p = (a.name, (a.value, a.required))) :
    (∀ p ∈ s.values, argOf p ∈ as) ∧ ∀ a ∈ as, ∃ p ∈ s.values, argOf p = a ∧ p.2.2 = a.required := by
  constructor
  · intro p hp
    rcases (h p).mp hp with h | ⟨a, ha, rfl⟩
    · exact absurd h List.not_mem_nil
    · exact ha
  · intro a ha
    exact ⟨(a.name, (a.value, a.required)), (h _).mpr (Or.inr ⟨a, ha, rfl⟩), rfl, rfl⟩

theorem sorted_nodup {s : SMap (Val × Bool)} (h : s.Sorted) : (s.map (·.1)).Nodup := SMap.sorted_keys_nodup h

/-- For any prototype and any calls of set() with different names: if each value which is required fits, a put is sent which holds exactly the values which fit, each in the field it
was given for and marked; all other fields have their initial value and are not marked.
Missing: a structure as value (see C79_struct, C79_lost). -/
theorem C79_partial (env : CopyEnv) (rec : Assign) (t : List FieldDesc) (hu : Usable t) (as : List Arg) (hn : (as.map (·.name)).Nodup) (hp : ∀ a ∈ as, Plain a.name)
    (hf : ∀ a ∈ as, (∃ k x, Fits env rec t a k x) ∨ (Misfits env rec t a ∧ a.required = false)) :
    ∃ s cs, setAll {} as = .ok s ∧ PutBuild.build env rec t s = .ok (.mk t cs) ∧ cs.length = t.length ∧
      (∀ a ∈ as, ∀ k x, Fits env rec t a k x → cs[k]? = some (.mk true x)) ∧
      ∀ k d, t[k]? = some d → (∀ a ∈ as, ∀ x, ¬ Fits env rec t a k x) → cs[k]? = some (.mk false (initDatum d.code)) := by
  obtain ⟨s, e, hs, _, hm⟩ := setAll_spec as {} SMap.sorted_nil hn (fun a _ h => by simp [SMap.keys] at h)
  obtain ⟨k1, k2⟩ := kept hm
  obtain ⟨cs', e2, l, s1, s2⟩ := each_ok (env := env) (rec := rec) hu s.values (t.map fun d => .mk false (initDatum d.code)) (by simp) (sorted_nodup hs)
    (fun p hp' => hp _ (k1 p hp')) (fun p hp' => hf _ (k1 p hp')) (fun p _ k _ => fresh_new t k)
  refine ⟨s, cs', e, ?_, l, ?_, ?_⟩
  · unfold PutBuild.build
    rw [newValue_usable hu]
    simp only [Res.bind_ok, e2]
  · intro a ha k x h
    obtain ⟨p, hp', e, _⟩ := k2 a ha
    exact s1 p hp' k x (by rw [e]; exact h)
  · intro k d hd h
    rw [s2 k (fun p hp' x => h _ (k1 p hp') x)]
    exact fresh_new t k d hd

/-- if a value which is required does not fit, nothing is sent -/
theorem C79_refused (env : CopyEnv) (rec : Assign) (t : List FieldDesc) (hu : Usable t) (as : List Arg) (hn : (as.map (·.name)).Nodup) (hp : ∀ a ∈ as, Plain a.name)
    (hf : ∀ a ∈ as, (∃ k x, Fits env rec t a k x) ∨ Misfits env rec t a) (hbad : ∃ a ∈ as, Misfits env rec t a ∧ a.required = true) :
    ∃ s w, setAll {} as = .ok s ∧ PutBuild.build env rec t s = .throws w := by
  obtain ⟨s, e, hs, _, hm⟩ := setAll_spec as {} SMap.sorted_nil hn (fun a _ h => by simp [SMap.keys] at h)
  obtain ⟨k1, k2⟩ := kept hm
  obtain ⟨b, hb, hb1, hb2⟩ := hbad
  obtain ⟨p, hp1, hp2, hp3⟩ := k2 b hb
  obtain ⟨w, _, e2⟩ := each_bad (env := env) (rec := rec) hu s.values (t.map fun d => .mk false (initDatum d.code)) (by simp) (sorted_nodup hs)
    (fun p hp' => hp _ (k1 p hp')) (fun p hp' => hf _ (k1 p hp')) (fun p _ k _ => fresh_new t k) ⟨p, hp1, by rw [hp2]; exact hb1, by rw [hp3, hb2]⟩
  refine ⟨s, w, e, ?_⟩
  unfold PutBuild.build
  rw [newValue_usable hu]
  simp only [Res.bind_ok, e2, Res.bind_throws]

/-- the order in which set() is called does not matter -/
theorem C79_order (env : CopyEnv) (rec : Assign) (t : List FieldDesc) (as bs : List Arg) (h : as.Perm bs) (hn : (as.map (·.name)).Nodup) :
    ∃ s s', setAll {} as = .ok s ∧ setAll {} bs = .ok s' ∧ PutBuild.build env rec t s = PutBuild.build env rec t s' := by
  obtain ⟨s, e, hs, _, hm⟩ := setAll_spec as {} SMap.sorted_nil hn (fun a _ h => by simp [SMap.keys] at h)
  obtain ⟨s', e', hs', _, hm'⟩ := setAll_spec bs {} SMap.sorted_nil ((h.map _).nodup_iff.mp hn) (fun a _ h => by simp [SMap.keys] at h)
  refine ⟨s, s', e, e', ?_⟩
  have : s.values = s'.values := SMap.ext hs hs' (fun p => by
    rw [hm, hm']
    constructor
    · rintro (h1 | ⟨a, ha, h1⟩)
      · exact Or.inl h1
      · exact Or.inr ⟨a, h.mem_iff.mp ha, h1⟩
    · rintro (h1 | ⟨a, ha, h1⟩)
      · exact Or.inl h1
      · exact Or.inr ⟨a, h.mem_iff.mpr ha, h1⟩)
  unfold PutBuild.build
  rw [this]

/-- a second value for one field is refused -/
theorem C79_twice (as bs : List Arg) (x : Arg) (hn : (as.map (·.name)).Nodup) (h : x.name ∈ as.map (·.name)) : setAll {} (as ++ x :: bs) = .throws "logic_error" := by
  obtain ⟨s, e, hs, _, hm⟩ := setAll_spec as {} SMap.sorted_nil hn (fun a _ h => by simp [SMap.keys] at h)
  have happ : ∀ (as bs : List Arg) (s : Args), setAll s (as ++ bs) = setAll s as >>= fun s => setAll s bs := by
    intro as
    induction as with
    | nil => intro bs s; rfl
    | cons a as ih =>
      intro bs s
      simp only [List.cons_append, setAll]
      cases PutBuild.set s a with
      | ok s' => simp only [Res.bind_ok]; exact ih bs s'
      | throws w => rfl
      | ub => rfl
  rw [happ, e]
  simp only [Res.bind_ok, setAll]
  have : (s.values.find? x.name).isSome = true := by
    obtain ⟨a, ha, e⟩ := List.mem_map.mp h
    rw [(SMap.find?_some hs).mpr ((hm (x.name, (a.value, a.required))).mpr (Or.inr ⟨a, ha, by rw [e]⟩))]
    rfl
  simp only [PutBuild.set, this, ↓reduceIte, Res.bind_throws]

/-- a scalar is stored as it is in a field of its type -/
theorem C79_same (env : CopyEnv) (rec : Assign) (t : List FieldDesc) (a : Arg) (k : Nat) (d sd : FieldDesc) (st : List FieldDesc) (m : Bool) (x : Datum) (cs : List Cell)
    (hn : Names t a.name k) (hd : t[k]? = some d) (hv : a.value = .mk (sd :: st) (.mk m x :: cs)) (hc : sd.code = d.code) (ok : DatumOK d x)
    (hk : (match d.code.wireKind with | .f64 | .f32 | .int _ | .uint _ | .bool | .str => true | _ => false) = true) : Fits env rec t a k x := by
  refine ⟨hn, d, hd, sd, st, m, x, cs, hv, ?_, ?_⟩
  · intro h
    rw [← hc, h] at hk
    exact absurd hk (by decide)
  · rw [hc]
    have := copyScalar_same env d x ok hk
    unfold copyDatum
    revert hk
    split <;> simp_all

/-- the arguments of an example: set("a.s", "hi"), set("v", int32 7), and an optional value for a field which is not there -/
def exArgs : List Arg := [⟨[0x61, 0x2e, 0x73], .mk [{ code := .String }] [.mk true (.str [0x68, 0x69])], true⟩, ⟨[0x76], .mk [{ code := .Int32 }] [.mk true (.int 7)], true⟩,
  ⟨[0x7a], .mk [{ code := .Int32 }] [.mk true (.int 1)], false⟩]

theorem exArgs_plain : ∀ a ∈ exArgs, Plain a.name := by
  intro a ha c hc
  simp only [exArgs, List.mem_cons, List.not_mem_nil, or_false] at ha
  rcases ha with rfl | rfl | rfl <;> (revert c; decide)

theorem ex_s : Names exT [0x61, 0x2e, 0x73] 3 := Or.inr ⟨by decide, [[0x61], [0x73]], by decide, rfl,
  .member 0 _ [0x61] 2 _ 3 rfl rfl (by decide) (.member 2 _ [0x73] 1 [] 3 rfl rfl (by decide) (.here 3))⟩
theorem ex_v : Names exT [0x76] 1 := Or.inr ⟨by decide, [[0x76]], by decide, rfl, .member 0 _ [0x76] 1 [] 1 rfl rfl (by decide) (.here 1)⟩
theorem ex_z : ∀ k, ¬ Names exT [0x7a] k := by
  rcases fieldOf_spec exT_usable (name := [0x7a]) (by intro c hc; revert c; decide) with ⟨k, e, _⟩ | ⟨_, h⟩
  · cases e
  · exact h

theorem exArgs_fit (env : CopyEnv) (rec : Assign) : Fits env rec exT exArgs[0] 3 (.str [0x68, 0x69]) ∧ Fits env rec exT exArgs[1] 1 (.int 7) ∧ Misfits env rec exT exArgs[2] := by
  refine ⟨?_, ?_, Or.inl ex_z⟩
  · exact C79_same env rec exT _ 3 _ _ [] true _ [] ex_s rfl rfl rfl (by simp [DatumOK]) rfl
  · exact C79_same env rec exT _ 1 _ _ [] true _ [] ex_v rfl rfl rfl (by simp [DatumOK]) rfl

/-- the hypotheses of C79_partial hold of it -/
example (env : CopyEnv) (rec : Assign) : Usable exT ∧ (exArgs.map (·.name)).Nodup ∧ (∀ a ∈ exArgs, Plain a.name) ∧
    ∀ a ∈ exArgs, (∃ k x, Fits env rec exT a k x) ∨ (Misfits env rec exT a ∧ a.required = false) := by
  refine ⟨exT_usable, by decide, exArgs_plain, fun a ha => ?_⟩
  obtain ⟨h1, h2, h3⟩ := exArgs_fit env rec
  simp only [exArgs, List.mem_cons, List.not_mem_nil, or_false] at ha
  rcases ha with rfl | rfl | rfl
  · exact Or.inl ⟨_, _, h1⟩
  · exact Or.inl ⟨_, _, h2⟩
  · exact Or.inr ⟨h3, rfl⟩

/-- of C79_refused, when the last value is required -/
example (env : CopyEnv) (rec : Assign) : ∃ a, a.name = [0x7a] ∧ a.required = true ∧ Misfits env rec exT a :=
  ⟨⟨[0x7a], .mk [{ code := .Int32 }] [.mk true (.int 1)], true⟩, rfl, rfl, Or.inl ex_z⟩

/-- of C79_order and C79_twice -/
example : exArgs.Perm exArgs.reverse ∧ exArgs[1].name ∈ exArgs.map (·.name) := ⟨(List.reverse_perm _).symm, by decide⟩

/-- what is sent -/
example (env : CopyEnv) (rec : Assign) : ∃ s cs, setAll {} exArgs = .ok s ∧ PutBuild.build env rec exT s = .ok (.mk exT cs) ∧
    cs.map Cell.valid = [false, true, false, true, false, false] := ⟨_, _, rfl, rfl, rfl⟩

/-! ### where it fails -/

/-- struct { any x } -/
def anyM : Member := { code := .Struct, children := [{ code := .Any, name := [0x78] }] }
def anyT : List FieldDesc := flat anyM
theorem anyT_usable : Usable anyT :=
  ⟨.built anyM anyT (build_total _ (by simp [anyM, Validated, ValidatedAll]; decide) (by simp [anyM, DistinctNames, DistinctNamesAll])), rfl⟩

/-- a structure with the string "hi" in it -/
def someStruct : Val := .mk [{ code := .Struct, mlookup := [([0x73], 1)], miter := [([0x73], 1)] }, { code := .String, parentIndex := 1 }]
  [.mk false .null, .mk true (.str [0x68, 0x69])]

/-- A structure given for a field which can hold any value is lost: the put is sent without error and tells the server that the field holds nothing. -/
theorem C79_lost (env : CopyEnv) (rec : Assign) :
    ∃ s, setAll {} [⟨[0x78], someStruct, true⟩] = .ok s ∧ Names anyT [0x78] 1 ∧
      PutBuild.build env rec anyT s = .ok (.mk anyT [.mk false .null, .mk true (.any .null)]) := by
  refine ⟨_, rfl, Or.inr ⟨by decide, [[0x78]], by decide, rfl, .member 0 _ [0x78] 1 [] 1 rfl rfl (by decide) (.here 1)⟩, rfl⟩

/-- A structure given for a field of the same type is refused. -/
theorem C79_struct (env : CopyEnv) (rec : Assign) :
    ∃ s, setAll {} [⟨[0x61], someStruct, true⟩] = .ok s ∧ Names exT [0x61] 2 ∧ asRoot (subTable exT 2) = someStruct.desc ∧
      PutBuild.build env rec exT s = .throws "NoConvert" := by
  refine ⟨_, rfl, Or.inr ⟨by decide, [[0x61]], by decide, rfl, .member 0 _ [0x61] 2 [] 2 rfl rfl (by decide) (.here 2)⟩, rfl, rfl⟩

end Pvxs.Props.PutBuild
