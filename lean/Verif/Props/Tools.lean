import Verif.Spec.Tools
import Verif.Props.RpcArgs
/-
C106: pvxput and pvxcall send what their arguments say, or nothing, and tell by the exit status whether it was done.
-/
namespace Pvxs.Props.Tools
open Pvxs Pvxs.TypeDef Pvxs.Spec Pvxs.Tools Pvxs.Spec.Tools
open Pvxs.Rpc (leafVal member partType withPath)
open Pvxs.NT (lit plus fld)
open Pvxs.Spec.NT (txt Name)
open Pvxs.Props.NT (Good defOf)
open Pvxs.Spec.PutBuild (Fits Misfits Plain)
open Pvxs.Spec.Rpc (uriDef Has)
open Pvxs.Props.Rpc (uriKids uriM queryM)

/-! ### name=text -/

theorem split_setting (f : Str × Str) (h : NoEq f.1) : splitArg (setting f) = some f := by
  have key : ∀ (k : Str), NoEq k → (k ++ 0x3d :: f.2).dropWhile (· != 0x3d) = 0x3d :: f.2 ∧ (k ++ 0x3d :: f.2).takeWhile (· != 0x3d) = k := by
    intro k
    induction k with
    | nil => intro _; simp
    | cons c k ih =>
      intro hk
      have h1 : c ≠ 0x3d := fun e => hk (by simp [e])
      have h2 := ih fun e => hk (by simp [e])
      simp [h1, h2]
  obtain ⟨h1, h2⟩ := key f.1 h
  simp only [splitArg, setting, h1, h2]

theorem split_iff (a name text : Str) : splitArg a = some (name, text) ↔ Says a name text := by
  constructor
  · intro h
    unfold splitArg at h
    split at h
    · cases h
    · rename_i c v he
      injection h with h
      injection h with h1 h2
      subst h1; subst h2
      have hc : c = 0x3d := by
        have := List.head?_dropWhile_not (· != (0x3d : Wire.Byte)) a
        rw [he] at this
        simpa using this
      subst hc
      refine ⟨?_, ?_⟩
      · intro hm
        have key : ∀ (l : Str) (x : Wire.Byte), x ∈ l.takeWhile (· != 0x3d) → (x != 0x3d) = true := by
          intro l x
          induction l with
          | nil => simp
          | cons c l ih =>
            intro h
            rw [List.takeWhile_cons] at h
            split at h
            · rcases List.mem_cons.mp h with rfl | h
              · assumption
              · exact ih h
            · cases h
        have := key _ _ hm
        simp at this
      · show a = a.takeWhile (· != 0x3d) ++ 0x3d :: v
        rw [← he, List.takeWhile_append_dropWhile]
  · rintro ⟨h, rfl⟩
    exact split_setting _ h

theorem split_none (a : Str) : splitArg a = none ↔ NoEq a := by
  constructor
  · intro h hm
    obtain ⟨k, v, rfl, hk⟩ : ∃ k v, a = k ++ 0x3d :: v ∧ NoEq k := by
      clear h
      induction a with
      | nil => simp at hm
      | cons c a ih =>
        by_cases hc : c = 0x3d
        · exact ⟨[], a, by rw [hc]; rfl, by simp [NoEq]⟩
        · obtain ⟨k, v, rfl, hk⟩ := ih (by simpa [Ne.symm hc] using hm)
          exact ⟨c :: k, v, rfl, by simp [NoEq, Ne.symm hc]; exact hk⟩
    rw [show k ++ 0x3d :: v = setting (k, v) from rfl, split_setting _ hk] at h
    cases h
  · intro h
    cases hs : splitArg a with
    | none => rfl
    | some p =>
      obtain ⟨_, e⟩ := (split_iff a p.1 p.2).mp hs
      exact absurd (by rw [e]; simp [setting]) h

/-! ### pvxput -/

theorem putEach_all : ∀ (fs : List (Str × Str)) (m : SMap Str), (∀ f ∈ fs, NoEq f.1) → putEach m (fs.map setting) = some (m.insertAll fs)
  | [], m, _ => rfl
  | f :: fs, m, h => by
    simp only [List.map_cons, putEach, split_setting f (h f (by simp))]
    rw [putEach_all fs _ fun g hg => h g (by simp [hg])]
    rfl

theorem putArgs_all (fs : List (Str × Str)) (h : ∀ f ∈ fs, NoEq f.1) : putArgs (fs.map setting) = some (SMap.insertAll [] fs) := by
  rw [← putEach_all fs [] h]
  match fs with
  | [] => rfl
  | [f] => simp only [putArgs, List.map_cons, List.map_nil, split_setting f (h f (by simp))]
  | _ :: _ :: _ => rfl

/-- the same put as one which is made with set() -/
theorem put_build (env : CopyEnv) (rec : Assign) (t : List FieldDesc) (fs : List (Str × Str)) (hn : (fs.map (·.1)).Nodup) (s : PutBuild.Args)
    (hs : PutBuild.setAll {} (fs.map textArg) = .ok s) : putValue env rec t (SMap.insertAll [] fs) = PutBuild.build env rec t s := by
  obtain ⟨s', e, h1, _, h2⟩ := PutBuild.setAll_spec (fs.map textArg) {} SMap.sorted_nil (by rw [List.map_map]; exact hn) (fun a _ h => by simp [SMap.keys] at h)
  rw [hs] at e
  injection e with e
  subst e
  have hsort : (SMap.insertAll ([] : SMap Str) fs).Sorted := SMap.sorted_insertAll SMap.sorted_nil fs
  have : (SMap.insertAll ([] : SMap Str) fs).map (fun p => (p.1, (leafVal .String (.str p.2), true))) = s.values := by
    refine SMap.ext ?_ h1 ?_
    · unfold SMap.Sorted at hsort ⊢
      exact List.pairwise_map.mpr hsort
    · intro p
      rw [h2, List.mem_map]
      constructor
      · rintro ⟨q, hq, rfl⟩
        rcases (SMap.mem_insertAll SMap.sorted_nil hn (by simp [SMap.keys]) q).mp hq with h | h
        · exact nomatch h
        · exact Or.inr ⟨textArg q, List.mem_map.mpr ⟨q, h, rfl⟩, rfl⟩
      · rintro (h | ⟨a, ha, rfl⟩)
        · exact nomatch h
        · obtain ⟨f, hf, rfl⟩ := List.mem_map.mp ha
          exact ⟨f, (SMap.mem_insertAll SMap.sorted_nil hn (by simp [SMap.keys]) f).mpr (by simp [hf]), rfl⟩
  unfold putValue PutBuild.build
  rw [this]

/-- C106: for arguments `name=text` with different names, of which each text can be converted to the type of the field: a put is sent which holds exactly these, each in the field
which was named and marked; all other fields have their initial value and are not marked.
Missing: names with `<`, `[` or `-`; a name which is given twice (C106_twice). -/
theorem C106_put_partial (env : CopyEnv) (rec : Assign) (t : List FieldDesc) (hu : Usable t) (fs : List (Str × Str)) (hn : (fs.map (·.1)).Nodup) (he : ∀ f ∈ fs, NoEq f.1)
    (hp : ∀ f ∈ fs, Plain f.1) (hf : ∀ f ∈ fs, ∃ k x, Fits env rec t (textArg f) k x) :
    ∃ m cs, putArgs (fs.map setting) = some m ∧ putValue env rec t m = .ok (.mk t cs) ∧ cs.length = t.length ∧
      (∀ f ∈ fs, ∀ k x, Fits env rec t (textArg f) k x → cs[k]? = some (.mk true x)) ∧
      ∀ k d, t[k]? = some d → (∀ f ∈ fs, ∀ x, ¬ Fits env rec t (textArg f) k x) → cs[k]? = some (.mk false (initDatum d.code)) := by
  obtain ⟨s, cs, h1, h2, h3, h4, h5⟩ := PutBuild.C79_partial env rec t hu (fs.map textArg) (by rw [List.map_map]; exact hn)
    (by intro a ha; obtain ⟨f, hf', rfl⟩ := List.mem_map.mp ha; exact hp f hf')
    (by intro a ha; obtain ⟨f, hf', rfl⟩ := List.mem_map.mp ha; exact Or.inl (hf f hf'))
  refine ⟨_, cs, putArgs_all fs he, by rw [put_build env rec t fs hn s h1]; exact h2, h3, ?_, ?_⟩
  · intro f hf' k x h
    exact h4 _ (List.mem_map.mpr ⟨f, hf', rfl⟩) k x h
  · intro k d hd h
    refine h5 k d hd fun a ha x => ?_
    obtain ⟨f, hf', rfl⟩ := List.mem_map.mp ha
    exact h f hf' x

/-- C106: if there is no such field, or a text can not be converted, nothing is sent. -/
theorem C106_put_refused (env : CopyEnv) (rec : Assign) (t : List FieldDesc) (hu : Usable t) (fs : List (Str × Str)) (hn : (fs.map (·.1)).Nodup) (he : ∀ f ∈ fs, NoEq f.1)
    (hp : ∀ f ∈ fs, Plain f.1) (hf : ∀ f ∈ fs, (∃ k x, Fits env rec t (textArg f) k x) ∨ Misfits env rec t (textArg f)) (hbad : ∃ f ∈ fs, Misfits env rec t (textArg f)) :
    ∃ m w, putArgs (fs.map setting) = some m ∧ putValue env rec t m = .throws w := by
  obtain ⟨s, w, h1, h2⟩ := PutBuild.C79_refused env rec t hu (fs.map textArg) (by rw [List.map_map]; exact hn)
    (by intro a ha; obtain ⟨f, hf', rfl⟩ := List.mem_map.mp ha; exact hp f hf')
    (by intro a ha; obtain ⟨f, hf', rfl⟩ := List.mem_map.mp ha; exact hf f hf')
    (by obtain ⟨f, hf', hm⟩ := hbad; exact ⟨_, List.mem_map.mpr ⟨f, hf', rfl⟩, hm, rfl⟩)
  exact ⟨_, w, putArgs_all fs he, by rw [put_build env rec t fs hn s h1]; exact h2⟩

/-- C106: a single text without '=' is the value. -/
theorem C106_single (a : Str) (h : NoEq a) : putArgs [a] = putArgs [setting (txt "value", a)] := by
  have h1 := putArgs_all [(txt "value", a)] (by intro f hf; simp at hf; subst hf; simp [NoEq]; decide)
  simp only [List.map_cons, List.map_nil] at h1
  rw [h1]
  simp only [putArgs, (split_none a).mpr h]
  rfl

theorem putEach_unclear : ∀ (as : List Str) (m : SMap Str), (∃ a ∈ as, NoEq a) → putEach m as = none
  | [], _, ⟨_, h, _⟩ => nomatch h
  | b :: as, m, ⟨a, h, ha⟩ => by
    simp only [putEach]
    cases hs : splitArg b with
    | none => rfl
    | some p =>
      rcases List.mem_cons.mp h with rfl | h
      · rw [(split_none a).mpr ha] at hs; cases hs
      · exact putEach_unclear as _ ⟨a, h, ha⟩

/-- C106: when there are several arguments, and not all of them name a field, nothing is sent. -/
theorem C106_put_unclear (as : List Str) (h2 : 2 ≤ as.length) (h : ∃ a ∈ as, NoEq a) : putArgs as = none := by
  rw [← putEach_unclear as [] h]
  match as, h2 with
  | _ :: _ :: _, _ => rfl

/-- C106 does not hold: when a field is given twice, pvxput sends the last text and does not mention the other one. -/
theorem C106_twice (fs : List (Str × Str)) (he : ∀ f ∈ fs, NoEq f.1) (k a b : Str) (hk : NoEq k) (ha : (k, a) ∈ fs) :
    ∃ m, putArgs ((fs ++ [(k, b)]).map setting) = some m ∧ m.find? k = some b := by
  refine ⟨_, putArgs_all _ (by intro f hf; rcases List.mem_append.mp hf with h | h; exact he f h; simp at h; subst h; exact hk), ?_⟩
  rw [SMap.insertAll_append]
  have hs := SMap.sorted_insertAll (m := ([] : SMap Str)) SMap.sorted_nil fs
  exact (SMap.find?_some (SMap.sorted_insert hs)).mpr ((SMap.mem_insert hs _).mpr (Or.inl rfl))

/-! ### pvxcall -/

theorem callEach_all : ∀ (fs : List (Str × Str)) (m : SMap Str) (ks : List Str), m.Sorted → (∀ f ∈ fs, NoEq f.1) → (fs.map (·.1)).Nodup → (∀ f ∈ fs, f.1 ∉ m.keys) →
    callEach m ks (fs.map setting) = some (m.insertAll fs, ks ++ fs.map (·.1))
  | [], m, ks, _, _, _, _ => by simp [callEach, SMap.insertAll]
  | f :: fs, m, ks, hs, he, hn, hk => by
    simp only [List.map_cons, List.nodup_cons] at hn
    simp only [List.map_cons, callEach, split_setting f (he f (by simp)), (SMap.find?_none hs).mpr (hk f (by simp)), Option.isSome_none, Bool.false_eq_true, if_false]
    rw [callEach_all fs _ _ (SMap.sorted_insert hs) (fun g hg => he g (by simp [hg])) hn.2]
    · simp [SMap.insertAll]
    · intro g hg h
      obtain ⟨v, hv⟩ := SMap.mem_keys.mp h
      rcases (SMap.mem_insert hs _).mp hv with h | ⟨_, h⟩
      · have e : g.1 = f.1 := (Prod.mk.inj h).1
        exact hn.1 (by rw [← e]; exact List.mem_map_of_mem hg)
      · exact hk g (by simp [hg]) (SMap.mem_keys.mpr ⟨v, h⟩)

/-- C106: pvxcall refuses an argument which does not name a field. -/
theorem C106_call_unclear (env : CopyEnv) (rec : Assign) (pv : Str) (as : List Str) (h : ∃ a ∈ as, NoEq a) : ∃ w, callArg env rec pv as = .throws w := by
  have key : ∀ (as : List Str) (m : SMap Str) (ks : List Str), (∃ a ∈ as, NoEq a) → callEach m ks as = none := by
    intro as
    induction as with
    | nil => rintro _ _ ⟨_, h, _⟩; exact nomatch h
    | cons b as ih =>
      rintro m ks ⟨a, h, ha⟩
      simp only [callEach]
      cases hs : splitArg b with
      | none => rfl
      | some p =>
        simp only
        split
        · rfl
        · rcases List.mem_cons.mp h with rfl | h
          · rw [(split_none a).mpr ha] at hs; cases hs
          · exact ih _ _ ⟨a, h, ha⟩
  exact ⟨"exit", by simp only [callArg, key as [] [] h]⟩

/-- C106: pvxcall refuses two arguments of one name. -/
theorem C106_call_twice (env : CopyEnv) (rec : Assign) (pv : Str) (as bs cs : List Str) (k x y : Str) (hk : NoEq k) :
    ∃ w, callArg env rec pv (as ++ setting (k, x) :: (bs ++ setting (k, y) :: cs)) = .throws w := by
  have had : ∀ (as : List Str) (m : SMap Str) (ks : List Str), m.Sorted → k ∈ m.keys → callEach m ks (as ++ setting (k, y) :: cs) = none := by
    intro as
    induction as with
    | nil =>
      intro m ks hs hm
      have : (m.find? k).isSome = true := by
        obtain ⟨v, hv⟩ := SMap.mem_keys.mp hm
        rw [(SMap.find?_some hs).mpr hv]; rfl
      simp [callEach, split_setting (k, y) hk, this]
    | cons a as ih =>
      intro m ks hs hm
      simp only [List.cons_append, callEach]
      cases splitArg a with
      | none => rfl
      | some p =>
        simp only
        split
        · rfl
        · refine ih _ _ (SMap.sorted_insert hs) ?_
          obtain ⟨v, hv⟩ := SMap.mem_keys.mp hm
          by_cases e : k = p.1
          · exact SMap.mem_keys.mpr ⟨p.2, (SMap.mem_insert hs _).mpr (Or.inl (by rw [e]))⟩
          · exact SMap.mem_keys.mpr ⟨v, (SMap.mem_insert hs _).mpr (Or.inr ⟨e, hv⟩)⟩
  have key : ∀ (as : List Str) (m : SMap Str) (ks : List Str), m.Sorted → callEach m ks (as ++ setting (k, x) :: (bs ++ setting (k, y) :: cs)) = none := by
    intro as
    induction as with
    | nil =>
      intro m ks hs
      simp only [List.nil_append, callEach, split_setting (k, x) hk]
      split
      · rfl
      · exact had bs _ _ (SMap.sorted_insert hs) (SMap.mem_keys.mpr ⟨x, (SMap.mem_insert hs _).mpr (Or.inl rfl)⟩)
    | cons a as ih =>
      intro m ks hs
      simp only [List.cons_append, callEach]
      cases splitArg a with
      | none => rfl
      | some p =>
        simp only
        split
        · rfl
        · exact ih _ _ (SMap.sorted_insert hs)
  exact ⟨"exit", by simp only [callArg, key as [] [] SMap.sorted_nil]⟩

/-- a text -/
def strM (k : Str) : Member := { code := .String, name := k }

theorem str_good {k : Str} (h : Name k) : Good (strM k) := by
  obtain ⟨h1, h2⟩ := Props.NT.name_ok h
  exact ⟨Props.NT.leaf_ok _ _ h1 rfl, h2, Props.NT.leaf_distinct _ _⟩

theorem add_keys : ∀ (ks pre : List Str), (∀ k ∈ pre ++ ks, Name k) → (pre ++ ks).Nodup →
    addKeys (defOf (lit "epics:nt/NTURI:1.0") (uriKids (pre.map strM))) ks = .ok (defOf (lit "epics:nt/NTURI:1.0") (uriKids ((pre ++ ks).map strM)))
  | [], pre, _, _ => by rw [List.append_nil]; rfl
  | k :: ks, pre, hname, hn => by
    have hk : Name k := hname k (by simp)
    have hg : ∀ m ∈ [strM k], Good m := by intro m hm; simp at hm; subst hm; exact str_good hk
    have hn' : ((pre ++ [k]) ++ ks).Nodup := by rwa [List.append_assoc]
    have hall : ∀ m ∈ (pre ++ [k]).map strM, Good m := by
      intro m hm
      obtain ⟨j, hj, rfl⟩ := List.mem_map.mp hm
      refine str_good (hname j ?_)
      rcases List.mem_append.mp hj with h | h
      · exact List.mem_append_left _ h
      · simp at h; subst h; simp
    have hnd : (((pre ++ [k]).map strM).map Member.name).Nodup := by
      rw [List.map_map]
      have : Member.name ∘ strM = id := rfl
      rw [this, List.map_id]
      exact (List.nodup_append.mp hn').1
    have hv1 : Member.validate { code := .String, name := k } = .ok () := ((Props.TypeDef.validated_iff _).mp (str_good hk).1).1
    have hv2 : Member.validate { code := .Struct, name := lit "query", children := [{ code := .String, name := k }] } = .ok () :=
      ((Props.TypeDef.validated_iff _).mp (Props.NT.good_struct (lit "query") [] [strM k] rfl (by decide) hg (by simp)).1).1
    have hp : plus (defOf (lit "epics:nt/NTURI:1.0") (uriKids (pre.map strM))) [{ code := .Struct, name := lit "query", children := [{ code := .String, name := k }] }] =
        .ok (defOf (lit "epics:nt/NTURI:1.0") (uriKids ((pre ++ [k]).map strM))) := by
      refine Props.NT.plus_good _ _ _ _ ?_ (Props.Rpc.uri_good _ hall hnd).1 (Props.Rpc.uri_good _ hall hnd).2
      have h1 := Props.TypeDef.adopt_old { code := .Struct, name := lit "query", children := [strM k] } { code := .Struct, name := lit "query", children := pre.map strM } [] rfl
        [fld .String "scheme", fld .String "authority", fld .String "path"] (by
          show lit "query" ∉ ([lit "scheme", lit "authority", lit "path"] : List Str)
          decide)
      rw [adoptAll]
      rw [show uriKids (pre.map strM) = [fld .String "scheme", fld .String "authority", fld .String "path"] ++
        ({ code := .Struct, name := lit "query", children := pre.map strM } : Member) :: [] from rfl]
      have h2 : adoptAll (pre.map strM) [strM k] = .ok (pre.map strM ++ [strM k]) := Props.Rpc.adopt_all_new _ _ (by simpa [List.map_append] using hnd)
      rw [show ({ code := .String, name := k } : Member) = strM k from rfl, h1, if_neg (by intro h; exact h rfl), h2]
      simp only [Res.bind_ok]
      rw [adoptAll]
      simp [uriKids, List.map_append]
      rfl
    simp only [addKeys, addKey, hv1, hv2, Res.bind_ok, hp]
    have := add_keys ks (pre ++ [k]) (by rwa [List.append_assoc]) hn'
    rw [this, List.append_assoc]
    rfl

theorem copy_text (env : CopyEnv) (rec : Assign) (d : FieldDesc) (hd : d.code = .String) (old : Datum) (x : Str) :
    copyDatum env rec d old .String (.str x) = .ok (.str x) := by
  unfold copyDatum
  rw [hd]
  rfl

/-- the loop which fills in the texts -/
theorem texts_ok (env : CopyEnv) (rec : Assign) (ks : List Str) (hname : ∀ k ∈ ks, Name k) (hn : ks.Nodup) :
    ∀ (ps : List (Str × Str)) (cs : List Cell), (∀ p ∈ ps, p.1 ∈ ks) → (ps.map (·.1)).Nodup → cs.length = (flat (uriM (ks.map strM))).length →
    ∃ cs', assignTexts env rec (flat (uriM (ks.map strM))) ps cs = .ok cs' ∧ cs'.length = cs.length ∧
      (∀ p ∈ ps, ∀ o, KidAt 1 (ks.map strM) o (strM p.1) → cs'[4 + o]? = some (.mk true (.str p.2))) ∧
      (∀ j, (∀ p ∈ ps, ∀ o, KidAt 1 (ks.map strM) o (strM p.1) → 4 + o ≠ j) → cs'[j]? = cs[j]?)
  | [], cs, _, _, _ => ⟨cs, rfl, rfl, (fun _ h => nomatch h), fun _ _ => rfl⟩
  | p :: ps, cs, hsub, hnd, hlen => by
    have hms : ∀ k ∈ ks.map strM, Good k := by
      intro k hk
      obtain ⟨x, hx, rfl⟩ := List.mem_map.mp hk
      exact str_good (hname x hx)
    have hmn : ((ks.map strM).map Member.name).Nodup := by
      rw [List.map_map]
      have : Member.name ∘ strM = id := rfl
      rw [this, List.map_id]
      exact hn
    obtain ⟨u1, u2, u3, u4⟩ := Props.Rpc.uri_full hms hmn
    have hfU := full_of_distinct _ u2
    have hfQ := full_of_distinct _ u4
    have hpk := hsub p (by simp)
    obtain ⟨o, hk⟩ := PVR.kidAt_of_mem (List.mem_map.mpr ⟨p.1, hpk, rfl⟩ : strM p.1 ∈ ks.map strM)
    have hfe : Full (strM p.1) := full_of_distinct _ (str_good (hname _ hpk)).2.2
    have hemb := Props.Rpc.kid_embeds hk
    have hq : member (flat (uriM (ks.map strM))) (lit "query") = .ok (some 4) :=
      Props.Rpc.member_kid (c := queryM (ks.map strM)) hfU rfl (Props.Rpc.kid_query _) (show lit "query" ≠ [] by decide) (show (lit "query").any endsName = false by decide)
    have hm : member (partType (flat (uriM (ks.map strM))) 4) p.1 = .ok (some o) := by
      rw [Props.Rpc.partType_eq hfQ (Props.Rpc.query_embeds _)]
      exact Props.Rpc.member_kid (c := strM p.1) hfQ rfl hk (Props.Rpc.name_plain (hname _ hpk)).1 (Props.Rpc.name_plain (hname _ hpk)).2
    obtain ⟨d, hd1, hd2, _⟩ := embeds_root hfe hemb
    have hol : 4 + o < cs.length := by rw [hlen]; exact (List.getElem?_eq_some_iff.mp hd1).1
    have hone : assignText env rec (flat (uriM (ks.map strM))) cs p = .ok (storeCell cs (4 + o) (.str p.2)) := by
      simp only [assignText, hq, Res.bind_ok, hm, hd1]
      rw [copy_text env rec d hd2, Res.bind_ok]
    simp only [List.map_cons, List.nodup_cons] at hnd
    -- one place for one name
    have huniq : ∀ (x : Str) (o' : Nat), KidAt 1 (ks.map strM) o' (strM x) → (o = o' ↔ x = p.1) := by
      intro x o' hk'
      constructor
      · intro e
        subst e
        exact (congrArg Member.name (kidAt_unique hk hk')).symm
      · intro e
        subst e
        have hpair : ∀ {ms : List Member} {off o o' : Nat} {c c' : Member}, (ms.map Member.name).Nodup → KidAt off ms o c → KidAt off ms o' c' → c.name = c'.name → o = o' := by
          intro ms
          induction ms with
          | nil => intro off o o' c c' _ h; have := h.mem; simp at this
          | cons m ms ih =>
            intro off o o' c c' hnd h h' hcn
            simp only [List.map_cons, List.nodup_cons] at hnd
            rcases kidAt_cons.mp h with ⟨rfl, rfl⟩ | h1
            · rcases kidAt_cons.mp h' with ⟨rfl, rfl⟩ | h2
              · rfl
              · exact absurd (List.mem_map.mpr ⟨c', h2.mem, hcn.symm⟩) hnd.1
            · rcases kidAt_cons.mp h' with ⟨rfl, rfl⟩ | h2
              · exact absurd (List.mem_map.mpr ⟨c, h1.mem, hcn⟩) hnd.1
              · exact ih hnd.2 h1 h2 hcn
        exact hpair hmn hk hk' rfl
    obtain ⟨cs', r1, r2, r3, r4⟩ := texts_ok env rec ks hname hn ps (storeCell cs (4 + o) (.str p.2)) (fun x hx => hsub x (by simp [hx])) hnd.2 (by simp [storeCell, hlen])
    refine ⟨cs', ?_, by rw [r2]; simp [storeCell], ?_, ?_⟩
    · simp only [assignTexts, hone, Res.bind_ok]
      exact r1
    · intro x hx o' hk'
      rcases List.mem_cons.mp hx with rfl | hx
      · have ho := (huniq x.1 o' hk').mpr rfl
        subst ho
        rw [r4 (4 + o) ?_]
        · exact List.getElem?_set_self hol
        · intro y hy o' hk' e
          have : o = o' := by omega
          have := (huniq y.1 o' hk').mp this
          exact hnd.1 (this ▸ List.mem_map.mpr ⟨y, hy, rfl⟩)
      · exact r3 x hx o' hk'
    · intro j hj
      rw [r4 j fun x hx => hj x (by simp [hx])]
      exact List.getElem?_set_ne (hj p (by simp) o hk)

/-- C106: for arguments `name=text` with different names, which are proper names of fields, pvxcall sends an NTURI: `path` is the name of the PV, `scheme` and `authority` are empty,
and the query has one String field for each argument, in their order, with the text. -/
theorem C106_call_partial (env : CopyEnv) (rec : Assign) (pv : Str) (fs : List (Str × Str)) (hname : ∀ f ∈ fs, Name f.1) (hn : (fs.map (·.1)).Nodup) :
    ∃ (v : Val) (t : List FieldDesc) (cs : List Cell), callArg env rec pv (fs.map setting) = .ok v ∧ v = .mk t cs ∧ cs.length = t.length ∧
      Pvxs.build (uriDef (fs.map fun f => { code := .String, name := f.1 })) = .ok t ∧
      (∃ d, Has v [txt "path"] d (.mk true (.str pv)) ∧ d.code = .String) ∧
      (∃ d, Has v [txt "scheme"] d (.mk false (.str [])) ∧ d.code = .String) ∧
      (∃ d, Has v [txt "authority"] d (.mk false (.str [])) ∧ d.code = .String) ∧
      ∀ f ∈ fs, ∃ d, Has v [txt "query", f.1] d (.mk true (.str f.2)) ∧ d.code = .String := by
  have hNoEq : ∀ f ∈ fs, NoEq f.1 := by
    intro f hf hm
    obtain ⟨a, t, e, hall, _⟩ := hname f hf
    have := hall _ hm
    revert this
    decide
  let ks := fs.map (·.1)
  have hks : ∀ k ∈ ks, Name k := by intro k hk; obtain ⟨f, hf, rfl⟩ := List.mem_map.mp hk; exact hname f hf
  have hms : ∀ k ∈ ks.map strM, Good k := by
    intro k hk
    obtain ⟨x, hx, rfl⟩ := List.mem_map.mp hk
    exact str_good (hks x hx)
  have hmn : ((ks.map strM).map Member.name).Nodup := by
    rw [List.map_map]
    have : Member.name ∘ strM = id := rfl
    rw [this, List.map_id]
    exact hn
  obtain ⟨u1, u2, u3, u4⟩ := Props.Rpc.uri_full hms hmn
  have hfU := full_of_distinct _ u2
  have hcreate : (defOf (lit "epics:nt/NTURI:1.0") (uriKids (ks.map strM))).create = .ok (.mk (flat (uriM (ks.map strM))) (Props.Rpc.initCells (flat (uriM (ks.map strM))))) :=
    Props.Rpc.new_eq u1 u2
  have hpath : member (flat (uriM (ks.map strM))) (lit "path") = .ok (some 3) :=
    Props.Rpc.member_kid (c := fld .String "path") hfU rfl ⟨[fld .String "scheme", fld .String "authority"], [{ code := .Struct, name := lit "query", children := ks.map strM }], rfl, rfl⟩
      (by decide) (by decide)
  have hmem : ∀ q, q ∈ SMap.insertAll ([] : SMap Str) fs ↔ q ∈ fs := by
    intro q
    rw [SMap.mem_insertAll SMap.sorted_nil hn (by simp [SMap.keys])]
    simp
  have hpn : ((SMap.insertAll ([] : SMap Str) fs).map (·.1)).Nodup := SMap.sorted_keys_nodup (SMap.sorted_insertAll SMap.sorted_nil fs)
  obtain ⟨cs, c1, c2, c3, c4⟩ := texts_ok env rec ks hks hn (SMap.insertAll [] fs) (storeCell (Props.Rpc.initCells (flat (uriM (ks.map strM)))) 3 (.str pv))
    (fun p hp => List.mem_map.mpr ⟨p, (hmem p).mp hp, rfl⟩) hpn (by simp [storeCell, Props.Rpc.initCells])
  have hcall : callArg env rec pv (fs.map setting) = .ok (.mk (flat (uriM (ks.map strM))) cs) := by
    simp only [callArg, callEach_all fs [] [] SMap.sorted_nil hNoEq hn (by simp [SMap.keys]), List.nil_append]
    rw [Props.Rpc.uri_ok [] Props.NT.all_nil List.nodup_nil, Res.bind_ok]
    have hadd := add_keys ks [] (by simpa using hks) (by simpa using hn)
    simp only [List.map_nil, List.nil_append] at hadd
    rw [hadd, Res.bind_ok, hcreate, Res.bind_ok]
    simp only [withPath, hpath, Res.bind_ok, c1]
  have hlenU : 4 < (flat (uriM (ks.map strM))).length := by
    have := (Props.Rpc.query_embeds (ks.map strM)).len
    have hp := count_pos (queryM (ks.map strM))
    rw [flat_length] at this
    omega
  have hcl : cs.length = (flat (uriM (ks.map strM))).length := by rw [c2]; simp [storeCell, Props.Rpc.initCells]
  have hfirst : ∀ j, j < 5 → cs[j]? = (storeCell (Props.Rpc.initCells (flat (uriM (ks.map strM)))) 3 (.str pv))[j]? := by
    intro j hj
    refine c4 j fun p hp o hk hbad => ?_
    have := hk.bound.1
    omega
  have hset : ∀ j, j ≠ 3 → (storeCell (Props.Rpc.initCells (flat (uriM (ks.map strM)))) 3 (.str pv))[j]? = (Props.Rpc.initCells (flat (uriM (ks.map strM))))[j]? :=
    fun j hj => List.getElem?_set_ne (fun h => hj h.symm)
  have hleaf : ∀ (o : Nat) (s : String) (pre post : List Member), uriKids (ks.map strM) = pre ++ fld .String s :: post → o = 1 + countKids pre →
      Descends (flat (uriM (ks.map strM))) 0 [lit s] o ∧ ∃ d, (flat (uriM (ks.map strM)))[o]? = some d ∧ d.code = .String := by
    intro o s pre post h1 h2
    have hk : KidAt 1 (uriM (ks.map strM)).children o (fld .String s) := ⟨pre, post, h1, h2⟩
    obtain ⟨d, hd1, hd2, _⟩ := embeds_root (full_of_distinct _ (Props.NT.leaf_distinct _ _)) (embeds_child (m := uriM (ks.map strM)) rfl hk)
    exact ⟨Props.Rpc.descends_kid (m := uriM (ks.map strM)) rfl hk, d, hd1, hd2⟩
  obtain ⟨p1, d1, p1a, p1b⟩ := hleaf 1 "scheme" [] [fld .String "authority", fld .String "path", queryM (ks.map strM)] rfl rfl
  obtain ⟨p2, d2, p2a, p2b⟩ := hleaf 2 "authority" [fld .String "scheme"] [fld .String "path", queryM (ks.map strM)] rfl rfl
  obtain ⟨p3, d3, p3a, p3b⟩ := hleaf 3 "path" [fld .String "scheme", fld .String "authority"] [queryM (ks.map strM)] rfl rfl
  have hty : uriDef (fs.map fun f => { code := .String, name := f.1 }) = uriM (ks.map strM) := by
    simp only [ks, List.map_map]
    rfl
  refine ⟨_, _, _, hcall, rfl, hcl, by rw [hty]; exact build_total _ u1 u2, ⟨d3, ⟨_, _, 3, rfl, p3, p3a, ?_⟩, p3b⟩,
    ⟨d1, ⟨_, _, 1, rfl, p1, p1a, ?_⟩, p1b⟩, ⟨d2, ⟨_, _, 2, rfl, p2, p2a, ?_⟩, p2b⟩, ?_⟩
  · rw [hfirst 3 (by decide)]
    exact List.getElem?_set_self (by simp only [Props.Rpc.initCells, List.length_map]; omega)
  · rw [hfirst 1 (by decide), hset 1 (by decide), Props.Rpc.init_get p1a, p1b]
    rfl
  · rw [hfirst 2 (by decide), hset 2 (by decide), Props.Rpc.init_get p2a, p2b]
    rfl
  · intro f hf
    obtain ⟨o, hk⟩ := PVR.kidAt_of_mem (List.mem_map.mpr ⟨f.1, List.mem_map.mpr ⟨f, hf, rfl⟩, rfl⟩ : strM f.1 ∈ ks.map strM)
    obtain ⟨d, hd1, hd2, _⟩ := embeds_root (full_of_distinct _ (str_good (hname f hf)).2.2) (Props.Rpc.kid_embeds hk)
    refine ⟨d, ⟨_, _, 4 + o, rfl, ?_, hd1, c3 f ((hmem f).mpr hf) o hk⟩, hd2⟩
    have e1 : Descends (flat (uriM (ks.map strM))) 0 [lit "query"] 4 := Props.Rpc.descends_kid (m := uriM (ks.map strM)) rfl (Props.Rpc.kid_query (ks.map strM))
    have e2 : Descends (flat (uriM (ks.map strM))) 4 [f.1] (4 + o) := descends_embed (Props.Rpc.query_embeds (ks.map strM)) (Props.Rpc.descends_kid (m := queryM (ks.map strM)) rfl hk)
    exact descends_append.mpr ⟨_, e1, e2⟩

/-! ### the exit status -/

theorem main_run (ok : Nat → Nat) (I : List Ev → Main → Prop) (hstep : ∀ seen m e, I seen m → I (seen ++ [e]) (mainStep ok m e)) :
    ∀ (es seen : List Ev) (m : Main), I seen m → I (seen ++ es) (es.foldl (mainStep ok) m)
  | [], seen, m, h => by rw [List.append_nil]; exact h
  | e :: es, seen, m, h => by
    have := main_run ok I hstep es (seen ++ [e]) _ (hstep seen m e h)
    rw [List.append_assoc] at this
    exact this

/-- what pvxcall knows -/
def CallInv (seen : List Ev) (m : Main) : Prop :=
  ((m.ret = 0 ∧ .result true ∈ seen) ∨ (m.ret = 1 ∧ .result false ∈ seen) ∨ (m.ret = 2 ∧ (m.done = true → .interrupt ∈ seen))) ∧
  ∀ n, m.status = some n → (n = 0 ∧ .result true ∈ seen) ∨ (n = 1 ∧ (.result false ∈ seen ∨ .timeout ∈ seen)) ∨ (n = 2 ∧ .interrupt ∈ seen)

theorem callInv_step (seen : List Ev) (m : Main) (e : Ev) (h : CallInv seen m) : CallInv (seen ++ [e]) (mainStep (fun _ => 0) m e) := by
  have hmono : CallInv (seen ++ [e]) m := by
    refine ⟨?_, fun n hn => ?_⟩
    · rcases h.1 with ⟨a, b⟩ | ⟨a, b⟩ | ⟨a, b⟩
      · exact Or.inl ⟨a, by simp [b]⟩
      · exact Or.inr (Or.inl ⟨a, by simp [b]⟩)
      · exact Or.inr (Or.inr ⟨a, fun hd => by simp [b hd]⟩)
    · rcases h.2 n hn with ⟨a, b⟩ | ⟨a, b | b⟩ | ⟨a, b⟩
      · exact Or.inl ⟨a, by simp [b]⟩
      · exact Or.inr (Or.inl ⟨a, Or.inl (by simp [b])⟩)
      · exact Or.inr (Or.inl ⟨a, Or.inr (by simp [b])⟩)
      · exact Or.inr (Or.inr ⟨a, by simp [b]⟩)
  cases e with
  | result b =>
    simp only [mainStep]
    split
    · exact hmono
    · cases b with
      | true => exact ⟨Or.inl ⟨rfl, by simp⟩, hmono.2⟩
      | false => exact ⟨Or.inr (Or.inl ⟨rfl, by simp⟩), hmono.2⟩
  | interrupt =>
    simp only [mainStep]
    split
    · exact hmono
    · refine ⟨?_, hmono.2⟩
      rcases hmono.1 with a | a | a
      · exact Or.inl a
      · exact Or.inr (Or.inl a)
      · exact Or.inr (Or.inr ⟨a.1, fun _ => by simp⟩)
  | timeout =>
    simp only [mainStep]
    split
    · exact hmono
    · refine ⟨hmono.1, fun n hn => ?_⟩
      injection hn with hn
      subst hn
      exact Or.inr (Or.inl ⟨rfl, Or.inr (by simp)⟩)
  | wake =>
    simp only [mainStep]
    split
    · exact hmono
    · rename_i hd
      refine ⟨hmono.1, fun n hn => ?_⟩
      injection hn with hn
      subst hn
      have hd : m.done = true := by cases e : m.done; simp [e] at hd; rfl
      rcases hmono.1 with a | a | a
      · exact Or.inl a
      · exact Or.inr (Or.inl ⟨a.1, Or.inl a.2⟩)
      · exact Or.inr (Or.inr ⟨a.1, a.2 hd⟩)

/-- C106: pvxcall tells by the exit status what has happened: 0 only after the server has answered the call, 1 only after an error or when there was no answer in time, 2 only if it was
interrupted. -/
theorem C106_call_status (es : List Ev) (n : Nat) (h : (callMain es).status = some n) :
    (n = 0 ∧ .result true ∈ es) ∨ (n = 1 ∧ (.result false ∈ es ∨ .timeout ∈ es)) ∨ (n = 2 ∧ .interrupt ∈ es) :=
  (main_run _ CallInv callInv_step es [] { ret := 2 } ⟨Or.inr (Or.inr ⟨rfl, by simp⟩), by simp⟩).2 n h

/-- what pvxput knows -/
def PutInv (seen : List Ev) (m : Main) : Prop :=
  (m.ret = 0 ∨ (m.ret = 1 ∧ .result false ∈ seen)) ∧ (.result false ∈ seen → m.status = none → m.ret = 1) ∧ (m.done = true → m.ret = 0 → .result true ∈ seen ∨ .interrupt ∈ seen) ∧
  ∀ n, m.status = some n → (n = 0 ∧ (.result true ∈ seen ∨ .interrupt ∈ seen)) ∨ (n = 1 ∧ (.result false ∈ seen ∨ .timeout ∈ seen))

theorem putInv_step (seen : List Ev) (m : Main) (e : Ev) (h : PutInv seen m) : PutInv (seen ++ [e]) (mainStep id m e) := by
  have hst : ∀ n, m.status = some n → (n = 0 ∧ (.result true ∈ seen ++ [e] ∨ .interrupt ∈ seen ++ [e])) ∨ (n = 1 ∧ (.result false ∈ seen ++ [e] ∨ .timeout ∈ seen ++ [e])) := by
    intro n hn
    rcases h.2.2.2 n hn with ⟨a, b | b⟩ | ⟨a, b | b⟩
    · exact Or.inl ⟨a, Or.inl (by simp [b])⟩
    · exact Or.inl ⟨a, Or.inr (by simp [b])⟩
    · exact Or.inr ⟨a, Or.inl (by simp [b])⟩
    · exact Or.inr ⟨a, Or.inr (by simp [b])⟩
  have hr : m.ret = 0 ∨ (m.ret = 1 ∧ .result false ∈ seen ++ [e]) := by
    rcases h.1 with a | ⟨a, b⟩
    · exact Or.inl a
    · exact Or.inr ⟨a, by simp [b]⟩
  have hd : m.done = true → m.ret = 0 → .result true ∈ seen ++ [e] ∨ .interrupt ∈ seen ++ [e] := by
    intro a b
    rcases h.2.2.1 a b with c | c
    · exact Or.inl (by simp [c])
    · exact Or.inr (by simp [c])
  have hsome : m.status.isSome = true → PutInv (seen ++ [e]) m := by
    intro a
    refine ⟨hr, fun _ b => ?_, hd, hst⟩
    rw [b] at a; cases a
  have hb : e ≠ .result false → (.result false ∈ seen ++ [e] → m.status = none → m.ret = 1) := by
    intro a b c
    refine h.2.1 ?_ c
    rcases List.mem_append.mp b with b | b
    · exact b
    · simp at b; exact absurd b.symm a
  cases e with
  | result b =>
    simp only [mainStep]
    split
    · rename_i hs; exact hsome hs
    · cases b with
      | true => exact ⟨hr, hb (by simp), fun _ _ => Or.inl (by simp), hst⟩
      | false => exact ⟨Or.inr ⟨rfl, by simp⟩, fun _ _ => rfl, by simp, hst⟩
  | interrupt =>
    simp only [mainStep]
    split
    · rename_i hs; exact hsome hs
    · exact ⟨hr, hb (by simp), fun _ _ => Or.inr (by simp), hst⟩
  | timeout =>
    simp only [mainStep]
    split
    · rename_i hs
      exact ⟨hr, hb (by simp), hd, hst⟩
    · refine ⟨hr, by simp, hd, fun n hn => ?_⟩
      injection hn with hn
      subst hn
      exact Or.inr ⟨rfl, Or.inr (by simp)⟩
  | wake =>
    simp only [mainStep]
    split
    · exact ⟨hr, hb (by simp), hd, hst⟩
    · rename_i hs
      refine ⟨hr, by simp, hd, fun n hn => ?_⟩
      injection hn with hn
      subst hn
      have hd' : m.done = true := by cases e : m.done; simp [e] at hs; rfl
      rcases hr with a | a
      · exact Or.inl ⟨a, hd hd' a⟩
      · exact Or.inr ⟨a.1, Or.inl a.2⟩

/-- C106: unless it is interrupted, pvxput tells by the exit status what has happened: 0 only after the server has done it, 1 only after an error or when there was no answer in
time.
Missing, and false (C106_interrupted): the same when it is interrupted. -/
theorem C106_put_status_partial (es : List Ev) (hi : .interrupt ∉ es) (n : Nat) (h : (putMain es).status = some n) :
    (n = 0 ∧ .result true ∈ es) ∨ (n = 1 ∧ (.result false ∈ es ∨ .timeout ∈ es)) := by
  rcases (main_run _ PutInv putInv_step es [] { ret := 0 } ⟨Or.inl rfl, by simp, by simp, by simp⟩).2.2.2 n h with ⟨a, b | b⟩ | a
  · exact Or.inl ⟨a, b⟩
  · exact absurd b hi
  · exact Or.inr a

/-- C106: a put which was refused is never reported as done. -/
theorem C106_put_failed (es more : List Ev) (h : .result false ∈ es) (hs : (putMain es).status = none) (n : Nat) (hn : (putMain (es ++ more)).status = some n) : n = 1 := by
  have hes := main_run _ PutInv putInv_step es [] { ret := 0 } ⟨Or.inl rfl, by simp, by simp, by simp⟩
  have key : ∀ (more : List Ev) (m : Main), m.ret = 1 → (m.status = none ∨ m.status = some 1) → ((more.foldl (mainStep id) m).status = none ∨ (more.foldl (mainStep id) m).status = some 1) := by
    intro more
    induction more with
    | nil => intro m _ h; exact h
    | cons e more ih =>
      intro m hr h
      refine ih _ ?_ ?_
      · cases e <;> simp only [mainStep] <;> split <;> simp [hr]
      · cases e <;> simp only [mainStep] <;> split <;> simp [hr, h]
  have := key more (putMain es) (hes.2.1 h hs) (Or.inl hs)
  have e : putMain (es ++ more) = more.foldl (mainStep id) (putMain es) := by simp [putMain, List.foldl_append]
  rw [e] at hn
  rcases this with h | h
  · rw [h] at hn; cases hn
  · rw [h] at hn; injection hn with hn; exact hn.symm

/-- C106: what was done is reported, when main() goes on before anything else happens. -/
theorem C106_done (es : List Ev) : (putMain (.result true :: .wake :: es)).status = some 0 ∧ (callMain (.result true :: .wake :: es)).status = some 0 := by
  have key : ∀ (ok : Nat → Nat) (es : List Ev) (m : Main), m.status = some 0 → (es.foldl (mainStep ok) m).status = some 0 := by
    intro ok es
    induction es with
    | nil => intro m h; exact h
    | cons e es ih => intro m h; refine ih _ ?_; cases e <;> simp [mainStep, h]
  exact ⟨key _ es _ rfl, key _ es _ rfl⟩

/-- C106 does not hold: when pvxput is interrupted while it waits, the exit status says that the put was done, although the server was not even found. -/
theorem C106_interrupted : (putMain [.interrupt, .wake]).status = some 0 ∧ (callMain [.interrupt, .wake]).status = some 2 := by decide

/-! ### concrete cases -/

/-- `pvxput PV value=5 a=b=c` -/
example : (∀ f ∈ [(txt "value", txt "5"), (txt "a", txt "b=c")], NoEq f.1 ∧ Plain f.1) ∧ putArgs ([(txt "value", txt "5"), (txt "a", txt "b=c")].map setting) = some [(txt "a", txt "b=c"), (txt "value", txt "5")] := by
  constructor
  · intro f hf
    simp only [List.mem_cons, List.not_mem_nil, or_false] at hf
    rcases hf with rfl | rfl <;> exact ⟨by simp only [NoEq]; decide, by simp only [Plain]; decide⟩
  · decide

/-- `pvxput PV 5` -/
example : putArgs [txt "5"] = some [(txt "value", txt "5")] := by decide

/-- `pvxput PV value=5 6` -/
example : putArgs [txt "value=5", txt "6"] = none := by decide

/-- the hypotheses of C106_call_partial are met by `pvxcall PV a=1 b=` -/
example : (∀ f ∈ [(txt "a", txt "1"), (txt "b", [])], Name f.1) ∧ ([(txt "a", txt "1"), (txt "b", [])].map (·.1)).Nodup := by
  refine ⟨?_, by decide⟩
  intro f hf
  simp only [List.mem_cons, List.not_mem_nil, or_false] at hf
  rcases hf with rfl | rfl <;> exact ⟨_, _, rfl, by decide, by decide⟩

/-- a type with a text: the hypotheses of C106_put_partial are met by `pvxput PV value=x` -/
example (env : CopyEnv) (rec : Assign) : ∃ k x, Fits env rec (flat { code := .Struct, children := [strM (txt "value")] }) (textArg (txt "value", txt "x")) k x := by
  refine ⟨1, .str (txt "x"), Or.inr ⟨by decide, [txt "value"], by simp, rfl, ?_⟩, _, rfl, _, _, _, _, _, rfl, by decide, copy_text _ _ _ rfl _ _⟩
  exact Props.Rpc.descends_kid (m := { code := .Struct, children := [strM (txt "value")] }) rfl ⟨[], [], rfl, rfl⟩

end Pvxs.Props.Tools
