import Verif.Model.EncodeState
import Verif.Props.C01
/-
C29: An Encoder can be reused.
-/
namespace Sereal

/-! ### The cached map is the map built from the fields -/

def Field.decl (f : Field) : FieldDecl := ⟨f.name, f.tag, f.exported⟩

/-- Replace field indices by fields. -/
def atIndex (fs : List Field) (m : Tags) : List (Bytes × Option Field) := m.map fun p => (p.1, fs[p.2]?)

theorem mapInsert_map {α β : Type} (g : α → β) (k : Bytes) (v : α) (m : List (Bytes × α)) :
    (mapInsert k v m).map (fun p => (p.1, g p.2)) = mapInsert k (g v) (m.map fun p => (p.1, g p.2)) := by
  induction m with
  | nil => rfl
  | cons p m ih =>
    obtain ⟨k', v'⟩ := p
    unfold mapInsert
    simp only [List.map_cons]
    split
    · simp
    · simp [ih]

theorem indexTags_structTags (pre fs : List Field) (m : Tags) (m' : List (Bytes × Field))
    (h : atIndex (pre ++ fs) m = m'.map fun p => (p.1, some p.2)) :
    atIndex (pre ++ fs) (indexTags (fs.map Field.decl) pre.length m) =
      (structTags fs m').map fun p => (p.1, some p.2) := by
  induction fs generalizing pre m m' with
  | nil => simpa [indexTags, structTags] using h
  | cons f fs ih =>
    have hf : (pre ++ f :: fs)[pre.length]? = some f := by simp
    have e : pre ++ f :: fs = (pre ++ [f]) ++ fs := by simp
    have hins : ∀ k, atIndex (pre ++ f :: fs) (mapInsert k pre.length m) =
        (mapInsert k f m').map fun p => (p.1, some p.2) := by
      intro k
      unfold atIndex at h ⊢
      rw [mapInsert_map (fun i => (pre ++ f :: fs)[i]?), hf, h, ← mapInsert_map (some : Field → Option Field)]
    have hl : pre.length + 1 = (pre ++ [f]).length := by simp
    unfold indexTags structTags
    simp only [List.map_cons]
    have e1 : f.decl.tag = f.tag := rfl
    have e2 : f.decl.exported = f.exported := rfl
    have e3 : f.decl.name = f.name := rfl
    rw [e1, e2, e3]
    split
    · rw [hl]; rw [e] at h ⊢; exact ih _ _ _ h
    · split
      · split
        · rw [hl]; rw [e] at h ⊢; exact ih _ _ _ h
        · rw [hl]; have := hins f.name; rw [e] at this ⊢; exact ih _ _ _ this
      · rw [hl]; have := hins f.tag; rw [e] at this ⊢; exact ih _ _ _ this

theorem tags_eq (fs : List Field) :
    atIndex fs (indexTags (fs.map Field.decl) 0 []) = (structTags fs []).map fun p => (p.1, some p.2) :=
  indexTags_structTags [] fs [] [] rfl

/-! ### Simulation -/

/-- Every map in the cache belongs to its type. -/
def CacheOk (T : Types) (c : Option CMap) : Prop :=
  ∀ cm t m, c = some cm → cm t = some m → m = indexTags (T.decls t) 0 []

theorem tagsGet_ok {T : Types} {c : Option CMap} (h : CacheOk T c) (t : Nat) :
    (tagsGet T.decls t c).1 = indexTags (T.decls t) 0 [] ∧ CacheOk T (tagsGet T.decls t c).2 := by
  have hcm : ∀ t m, (c.getD fun _ => none) t = some m → m = indexTags (T.decls t) 0 [] := by
    intro t m hm
    cases c with
    | none => cases hm
    | some cm => exact h cm t m rfl hm
  unfold tagsGet
  dsimp only
  split
  · rename_i m hm
    refine ⟨hcm t m hm, ?_⟩
    intro cm t' m' h1 h2
    cases h1
    exact hcm t' m' h2
  · refine ⟨rfl, ?_⟩
    intro cm t' m' h1 h2
    cases h1
    unfold CMap.insert at h2
    split at h2
    · rename_i he
      cases h2; rw [he]
    · exact hcm t' m' h2

/-- With a good cache, `x` does what `y` does, and leaves a good cache. -/
def Sim (T : Types) (x : C α) (y : E α) : Prop :=
  ∀ s c, CacheOk T c → (x s c).1 = y s ∧ CacheOk T (x s c).2

theorem Sim.lift {T : Types} (y : E α) : Sim T (C.lift y) y := fun _ _ h => ⟨rfl, h⟩

theorem Sim.pure {T : Types} (a : α) : Sim T (Pure.pure a : C α) (Pure.pure a : E α) := fun _ _ h => ⟨rfl, h⟩

theorem Sim.bind {T : Types} {x : C α} {y : E α} {f : α → C β} {g : α → E β} (h1 : Sim T x y)
    (h2 : ∀ a, Sim T (f a) (g a)) : Sim T (x >>= f) (y >>= g) := by
  intro s c hc
  obtain ⟨h3, h4⟩ := h1 s c hc
  show (C.bind x f s c).1 = E.bind y g s ∧ CacheOk T (C.bind x f s c).2
  unfold C.bind E.bind
  rw [← h3]
  cases hx : x s c with
  | mk r c' =>
    rw [hx] at h4
    cases r with
    | error e => exact ⟨rfl, h4⟩
    | ok p => exact h2 p.1 p.2 c' h4

/-- Leading actions that do not use the cache. -/
theorem Sim.liftBind {T : Types} {y : E α} {f : α → C β} {g : α → E β}
    (h : ∀ a, Sim T (f a) (g a)) : Sim T (C.lift y >>= f) (y >>= g) := Sim.bind (Sim.lift y) h

theorem Sim.congr {T : Types} {x : C α} {y y' : E α} (h : Sim T x y) (e : y' = y) : Sim T x y' := e ▸ h

theorem E.bind_assoc (x : E α) (f : α → E β) (g : β → E γ) : (x >>= f) >>= g = x >>= fun a => f a >>= g := by
  funext s
  show E.bind (E.bind x f) g s = E.bind x (fun a => E.bind (f a) g) s
  unfold E.bind
  cases x s with
  | error e => rfl
  | ok p => rfl

theorem E.bind_unit (x : E Unit) : (x >>= fun _ => Pure.pure ()) = x := by
  funext s
  show E.bind x (fun _ => E.pure ()) s = x s
  unfold E.bind
  cases x s with
  | error e => rfl
  | ok p => rfl

theorem elems_sim {T : Types} {rec : Val → C Unit} {rec' : Val → E Unit} (h : ∀ v, Sim T (rec v) (rec' v)) :
    ∀ vs, Sim T (encodeElemsC rec vs) (encodeElems rec' vs)
  | [] => Sim.pure ()
  | v :: vs => Sim.bind (h v) fun _ => elems_sim h vs

theorem pairs_sim {T : Types} {key : Bytes → E Unit} {rec : Val → C Unit} {rec' : Val → E Unit}
    (h : ∀ v, Sim T (rec v) (rec' v)) (kvs : List (Bytes × Val)) :
    ∀ ks, Sim T (encodePairsC key rec kvs ks) (encodePairs key rec' kvs ks)
  | [] => Sim.pure ()
  | _ :: ks => Sim.liftBind fun _ => Sim.bind (h _) fun _ => pairs_sim h kvs ks

theorem mapLookup_mapSnd {α β : Type} (g : α → β) (k : Bytes) (m : List (Bytes × α)) :
    mapLookup k (m.map fun p => (p.1, g p.2)) = (mapLookup k m).map g := by
  induction m with
  | nil => rfl
  | cons p m ih =>
    obtain ⟨k', v⟩ := p
    simp only [List.map_cons, mapLookup]
    split
    · rfl
    · exact ih

theorem fields_sim {T : Types} {cfg : ECfg} {rec : Val → C Unit} {rec' : Val → E Unit}
    (h : ∀ v, Sim T (rec v) (rec' v)) (fs : List Field) (tags : Tags)
    (htags : atIndex fs tags = (structTags fs []).map fun p => (p.1, some p.2)) :
    ∀ ks, Sim T (encodeFieldsC cfg rec fs tags ks) (encodeFields cfg rec' (structTags fs []) ks)
  | [] => Sim.pure ()
  | k :: ks => by
    unfold encodeFieldsC encodeFields
    refine Sim.liftBind fun _ => ?_
    have hl : (mapLookup k tags).map (fun i => fs[i]?) = (mapLookup k (structTags fs [])).map some := by
      rw [← mapLookup_mapSnd, ← mapLookup_mapSnd]
      exact congrArg (mapLookup k) htags
    cases h1 : mapLookup k tags with
    | none =>
      rw [h1] at hl
      cases h2 : mapLookup k (structTags fs []) with
      | none => exact Sim.bind (Sim.pure ()) fun _ => fields_sim h fs tags htags ks
      | some f => rw [h2] at hl; cases hl
    | some i =>
      rw [h1] at hl
      cases h2 : mapLookup k (structTags fs []) with
      | none => rw [h2] at hl; cases hl
      | some f =>
        rw [h2] at hl
        have hl' : fs[i]? = some f := by simpa using hl
        dsimp only
        rw [hl']
        dsimp only
        cases f.exported with
        | false => exact Sim.bind (Sim.lift _) fun _ => fields_sim h fs tags htags ks
        | true => exact Sim.bind (h _) fun _ => fields_sim h fs tags htags ks

theorem arr_sim {T : Types} {cfg : ECfg} {rec : Val → C Unit} {rec' : Val → E Unit}
    (h : ∀ v, Sim T (rec v) (rec' v)) (vs : List Val) (rn : Bool) :
    Sim T (encodeArrC cfg rec vs rn) (encodeArr cfg rec' vs rn) := by
  unfold encodeArrC encodeArr
  refine (Sim.liftBind fun _ => elems_sim h vs).congr ?_
  cases cfg.perlCompat && !rn
  · rfl
  · exact (E.bind_assoc _ _ _).symm

theorem mp_sim {T : Types} {cfg : ECfg} {rec : Val → C Unit} {rec' : Val → E Unit}
    (h : ∀ v, Sim T (rec v) (rec' v)) (kvs : List (Bytes × Val)) (rn vs : Bool) :
    Sim T (encodeMpC cfg rec kvs rn vs) (encodeMp cfg rec' kvs rn vs) := by
  unfold encodeMpC encodeMp
  refine (Sim.liftBind fun _ => pairs_sim h kvs _).congr ?_
  cases cfg.perlCompat && !rn
  · exact (E.bind_assoc _ _ _).symm
  · refine Eq.trans ?_ (E.bind_assoc _ _ _).symm
    rfl

theorem strct_sim {T : Types} {cfg : ECfg} {rec : Val → C Unit} {rec' : Val → E Unit}
    (h : ∀ v, Sim T (rec v) (rec' v)) (t : Nat) (name : Bytes) (fs : List Field)
    (ht : T.decls t = fs.map Field.decl) :
    Sim T (encodeStrctC cfg T rec t name fs) (encodeStrct cfg rec' name fs) := by
  have htags := tags_eq fs
  rw [← ht] at htags
  generalize hm : indexTags (T.decls t) 0 [] = m at htags
  intro s c hc
  obtain ⟨h1, h2⟩ := tagsGet_ok hc t
  have hlen : m.length = (structTags fs []).length := by
    have := congrArg List.length htags
    simpa [atIndex] using this
  have hkeys : m.map (·.1) = (structTags fs []).map (·.1) := by
    have := congrArg (List.map (·.1)) htags
    simpa [atIndex, Function.comp_def] using this
  have key : Sim T (do
      let ks ← C.lift (do
        emit [typeOBJECT]
        encodeBytes cfg name true
        if cfg.perlCompat then emit [typeREFN]
        emit (typeHASH :: varint m.length)
        rangeKeys cfg (m.map (·.1)))
      encodeFieldsC cfg rec fs m ks) (encodeStrct cfg rec' name fs) := by
    unfold encodeStrct
    refine (Sim.liftBind fun _ => fields_sim h fs m htags _).congr ?_
    rw [hlen, hkeys]
    cases cfg.perlCompat
    · simp only [E.bind_assoc]; rfl
    · simp only [E.bind_assoc]; rfl
  have := key s (tagsGet T.decls t c).2 h2
  unfold encodeStrctC
  show (C.bind (getTags T t) _ s c).1 = _ ∧ CacheOk T (C.bind (getTags T t) _ s c).2
  unfold C.bind getTags
  dsimp only
  rw [h1, hm]
  exact this

theorem ptr_sim {T : Types} {cfg : ECfg} {inp : Heap} {rec : Val → Bool → C Unit} {rec' : Val → Bool → E Unit}
    (h : ∀ v rn, Sim T (rec v rn) (rec' v rn)) (iface : Bool) (a : Addr) :
    Sim T (encodePtrC cfg inp rec iface a) (encodePtr cfg inp rec' iface a) := by
  unfold encodePtrC encodePtr
  dsimp only
  cases hc : !iface && isPerlStruct (inp.cellAt a) with
  | true => exact h _ _
  | false =>
    simp only [Bool.false_eq_true, if_false]
    cases getPointer cfg inp iface a with
    | error e => exact Sim.lift _
    | ok p2 =>
      dsimp only
      refine Sim.liftBind fun st => ?_
      cases findPtr st a p2 with
      | some offs => exact Sim.lift _
      | none =>
        dsimp only
        refine (Sim.liftBind fun _ => Sim.bind (h _ _) fun _ => Sim.lift _).congr ?_
        exact (E.bind_assoc _ _ _).symm

/-- Struct variables have the fields of their types, PerlFreeze has its two fields (perl.go:46-49). -/
structure WellTyped (T : Types) (ty : Addr → Nat) (inp : Heap) : Prop where
  fields : ∀ a, T.decls (ty a) = (inp.fieldsAt a).map Field.decl
  freeze : T.decls T.freeze = [⟨nameClass, [], true⟩, ⟨nameData, [], true⟩]

theorem encodeVal_sim {T : Types} {cfg : ECfg} {ty : Addr → Nat} {inp : Heap} (hw : WellTyped T ty inp)
    {rec : Option (Val → Bool → Bool → C Unit)} {rec' : Option (Val → Bool → Bool → E Unit)}
    (h : match rec, rec' with
      | none, none => True
      | some r, some r' => ∀ v ik rn, Sim T (r v ik rn) (r' v ik rn)
      | _, _ => False) :
    ∀ v ik rn, Sim T (encodeValC cfg T ty inp rec v ik rn) (encodeVal cfg inp rec' v ik rn) := by
  intro v
  induction v with
  | slice p n | rslice p n =>
    intro ik rn
    cases rec with
    | none => cases rec' with
      | none => exact Sim.lift _
      | some r' => cases h
    | some r => cases rec' with
      | none => cases h
      | some r' => exact arr_sim (fun v => h v _ _) _ _
  | smap m | rmap m =>
    intro ik rn
    cases rec with
    | none => cases rec' with
      | none => exact Sim.lift _
      | some r' => cases h
    | some r => cases rec' with
      | none => cases h
      | some r' => exact mp_sim (fun v => h v _ _) _ _ _
  | obj cls ref ih =>
    intro ik rn
    unfold encodeValC encodeVal
    refine (Sim.liftBind fun _ => ih false false).congr ?_
    exact (E.bind_assoc _ _ _).symm
  | weak ref ih =>
    intro ik rn
    unfold encodeValC encodeVal
    exact Sim.liftBind fun _ => ih false false
  | frozen cls data =>
    intro ik rn
    cases rec with
    | none => cases rec' with
      | none => exact Sim.lift _
      | some r' => cases h
    | some r => cases rec' with
      | none => cases h
      | some r' => exact strct_sim (fun v => h v _ _) _ _ _ hw.freeze
  | ptr iface a =>
    intro ik rn
    cases rec with
    | none => cases rec' with
      | none => exact Sim.lift _
      | some r' => cases h
    | some r => cases rec' with
      | none => cases h
      | some r' => exact ptr_sim (fun v rn => h v _ rn) _ _
  | strct name a =>
    intro ik rn
    cases rec with
    | none => cases rec' with
      | none => exact Sim.lift _
      | some r' => cases h
    | some r => cases rec' with
      | none => cases h
      | some r' => exact strct_sim (fun v => h v _ _) _ _ _ (hw.fields a)
  | marshaler cls res under ih =>
    intro ik rn
    unfold encodeValC encodeVal
    cases cfg.disableFreeze with
    | true => exact ih ik rn
    | false =>
      simp only [Bool.false_eq_true, if_false]
      cases res with
      | error n => exact Sim.lift _
      | ok data => exact Sim.lift _
  | nilptr =>
    intro ik rn
    cases rec with
    | none => cases rec' with
      | none => exact Sim.lift _
      | some r' => cases h
    | some r => cases rec' with
      | none => cases h
      | some r' => exact Sim.lift _
  | _ => intro ik rn; exact Sim.lift _

theorem encode_sim {T : Types} {cfg : ECfg} {ty : Addr → Nat} {inp : Heap} (hw : WellTyped T ty inp) :
    ∀ d v ik rn, Sim T (encodeC cfg T ty inp d v ik rn) (encode cfg inp d v ik rn)
  | 0 => encodeVal_sim hw trivial
  | 1 => encodeVal_sim hw trivial
  | d + 2 => encodeVal_sim hw (encode_sim hw (d + 1))

theorem encodeAfter_sim {T : Types} {cfg : ECfg} {ty : Addr → Nat} {inp : Heap} (hw : WellTyped T ty inp)
    (pre : Bytes) (v : Val) {c : Option CMap} (hc : CacheOk T c) :
    (encodeAfterC cfg T ty inp pre v c).1 = encodeAfter cfg inp pre v ∧
      CacheOk T (encodeAfterC cfg T ty inp pre v c).2 := by
  have h := encode_sim hw (cfg := cfg) (remainingRecursion cfg.maxRecursionDepth) v false false { buf := pre } c hc
  unfold encodeAfterC encodeAfter
  rw [← h.1]
  cases hx : encodeC cfg T ty inp (remainingRecursion cfg.maxRecursionDepth) v false false { buf := pre } c with
  | mk r c' =>
    rw [hx] at h
    cases r with
    | error e => exact ⟨rfl, h.2⟩
    | ok p => exact ⟨rfl, h.2⟩

theorem headerSuffix_sim {T : Types} {cfg : ECfg} {ty : Addr → Nat} {inp : Heap} (hw : WellTyped T ty inp)
    (header : Option Val) {c : Option CMap} (hc : CacheOk T c) :
    (headerSuffixC cfg T ty inp header c).1 = headerSuffix cfg inp header ∧
      CacheOk T (headerSuffixC cfg T ty inp header c).2 := by
  unfold headerSuffixC headerSuffix
  cases header with
  | none => exact ⟨rfl, hc⟩
  | some hv =>
    dsimp only
    split
    · have h := encodeAfter_sim hw (cfg := cfg) [1] hv hc
      rw [← h.1]
      cases hx : encodeAfterC cfg T ty inp [1] hv c with
      | mk r c' =>
        rw [hx] at h
        cases r with
        | error e => exact ⟨rfl, h.2⟩
        | ok p => exact ⟨rfl, h.2⟩
    · exact ⟨rfl, hc⟩

/-- What the call would give on a new Encoder of version `v`. -/
def Call.fresh (k : Call) (v : Nat) : Res Bytes :=
  marshalWithHeader { k.cfg with version := v } k.cs k.inp k.header k.body

/-! ### The body encoding does not depend on the version field -/

def ECfg.withVersion (cfg : ECfg) (v : Nat) : ECfg := { cfg with version := v }

theorem encodeFields_withVersion (cfg : ECfg) (v : Nat) (rec : Val → E Unit) (tags : List (Bytes × Field))
    (ks : List Bytes) : encodeFields (cfg.withVersion v) rec tags ks = encodeFields cfg rec tags ks := by
  induction ks with
  | nil => rfl
  | cons k ks ih => simp only [encodeFields]; rw [ih]; rfl

theorem encodeStrct_withVersion (cfg : ECfg) (v : Nat) (rec : Val → E Unit) (name : Bytes) (fs : List Field) :
    encodeStrct (cfg.withVersion v) rec name fs = encodeStrct cfg rec name fs := by
  unfold encodeStrct
  simp only [encodeFields_withVersion]
  rfl

theorem encodeVal_withVersion (cfg : ECfg) (n : Nat) (inp : Heap)
    (rec : Option (Val → Bool → Bool → E Unit)) (v : Val) :
    encodeVal (cfg.withVersion n) inp rec v = encodeVal cfg inp rec v := by
  induction v with
  | obj c r ih =>
    funext a b
    simp only [encodeVal]
    rw [ih]; rfl
  | weak r ih =>
    funext a b
    simp only [encodeVal]
    rw [ih]
  | marshaler c r u ih =>
    funext a b
    simp only [encodeVal]
    rw [ih]; rfl
  | frozen c d =>
    funext a b
    simp only [encodeVal, encodeStrct_withVersion]
  | strct n a =>
    funext a b
    simp only [encodeVal, encodeStrct_withVersion]
  | _ => rfl

theorem encode_withVersion (cfg : ECfg) (n : Nat) (inp : Heap) :
    ∀ d, encode (cfg.withVersion n) inp d = encode cfg inp d
  | 0 => by funext v; exact encodeVal_withVersion cfg n inp none v
  | 1 => by funext v; exact encodeVal_withVersion cfg n inp none v
  | d + 2 => by
    funext v
    show encodeVal (cfg.withVersion n) inp (some (encode (cfg.withVersion n) inp (d + 1))) v =
      encodeVal cfg inp (some (encode cfg inp (d + 1))) v
    rw [encode_withVersion cfg n inp (d + 1), encodeVal_withVersion]

theorem encodeAfter_withVersion (cfg : ECfg) (n : Nat) (inp : Heap) (pre : Bytes) (v : Val) :
    encodeAfter (cfg.withVersion n) inp pre v = encodeAfter cfg inp pre v := by
  unfold encodeAfter
  rw [encode_withVersion]
  rfl

/-- Version 0 is version 3 (encode.go:95-97). -/
theorem marshal_zero (cfg : ECfg) (cs : Codecs) (inp : Heap) (header : Option Val) (body : Val) (n : Nat) :
    marshalWithHeader (cfg.withVersion (if n = 0 then 3 else n)) cs inp header body =
      marshalWithHeader (cfg.withVersion n) cs inp header body := by
  have hv : (cfg.withVersion (if n = 0 then 3 else n)).ver = (cfg.withVersion n).ver := by
    unfold ECfg.ver ECfg.withVersion
    dsimp only
    by_cases h : n = 0 <;> simp [h]
  have hs : headerSuffix (cfg.withVersion (if n = 0 then 3 else n)) inp header =
      headerSuffix (cfg.withVersion n) inp header := by
    unfold headerSuffix
    cases header with
    | none => rfl
    | some h =>
      dsimp only
      rw [hv, encodeAfter_withVersion, encodeAfter_withVersion]
  unfold marshalWithHeader marshalRaw
  rw [hv, hs]
  simp only [encodeAfter_withVersion]
  rfl

theorem marshalRaw_sim {T : Types} {cfg : ECfg} {k : Call} {c : Option CMap} (hw : WellTyped T k.ty k.inp)
    (hc : CacheOk T c) :
    (marshalRawC cfg T k c).1 = marshalRaw cfg k.cs k.inp k.header k.body ∧
      CacheOk T (marshalRawC cfg T k c).2 := by
  unfold marshalRawC marshalRaw
  dsimp only
  obtain ⟨h1, h2⟩ := headerSuffix_sim hw (cfg := cfg) k.header hc
  rw [← h1]
  cases hx : headerSuffixC cfg T k.ty k.inp k.header c with
  | mk r c =>
  rw [hx] at h2
  cases r with
  | error x => exact ⟨rfl, h2⟩
  | ok suf =>
    obtain ⟨h3, h4⟩ := encodeAfter_sim hw (cfg := cfg) (if cfg.ver = 1 then magicFor cfg.ver ++
      (UInt8.ofNat cfg.ver ||| (UInt8.ofNat serealRaw <<< 4)) :: suf else [0]) k.body h2
    dsimp only at h4 ⊢
    show _ = (encodeAfter cfg k.inp (if cfg.ver = 1 then magicFor cfg.ver ++
      (UInt8.ofNat cfg.ver ||| (UInt8.ofNat serealRaw <<< 4)) :: suf else [0]) k.body >>= _) ∧ _
    rw [← h3]
    cases hy : encodeAfterC cfg T k.ty k.inp (if cfg.ver = 1 then magicFor cfg.ver ++
      (UInt8.ofNat cfg.ver ||| (UInt8.ofNat serealRaw <<< 4)) :: suf else [0]) k.body c with
    | mk r c =>
      rw [hy] at h4
      cases r with
      | error x => exact ⟨rfl, h4⟩
      | ok body => exact ⟨rfl, h4⟩

theorem marshalC_ok {T : Types} {e : Enc} {k : Call} (hw : WellTyped T k.ty k.inp) (hc : CacheOk T e.cache) :
    (marshalC T e k).1 = k.fresh e.version ∧ CacheOk T (marshalC T e k).2.cache ∧
      (marshalC T e k).2.version = (if e.version = 0 then 3 else e.version) := by
  unfold Call.fresh
  rw [show ({ k.cfg with version := e.version } : ECfg) = k.cfg.withVersion e.version from rfl, ← marshal_zero]
  unfold marshalC marshalWithHeader
  dsimp only
  obtain ⟨h1, h2⟩ := marshalRaw_sim hw (cfg := k.cfg.withVersion (if e.version = 0 then 3 else e.version)) hc
  refine ⟨?_, h2, rfl⟩
  rw [← h1]
  rfl

/-- C29: an Encoder (of version `v`, as made by NewEncoder, NewEncoderV2, NewEncoderV3 or as a zero
value) gives on each call the bytes or the error a new one would give, whatever the calls before.
The order of map iteration is part of `k.cfg`. -/
theorem C29 {T : Types} (v : Nat) (ks : List Call) (k : Call)
    (hks : ∀ k ∈ ks, WellTyped T k.ty k.inp) (hk : WellTyped T k.ty k.inp) :
    (marshalC T (marshalAll T ⟨v, none⟩ ks) k).1 = k.fresh v := by
  have key : ∀ (ks : List Call) (e : Enc), (∀ k ∈ ks, WellTyped T k.ty k.inp) → CacheOk T e.cache →
      (marshalC T (marshalAll T e ks) k).1 = k.fresh e.version := by
    intro ks
    induction ks with
    | nil => intro e _ hc; exact (marshalC_ok hk hc).1
    | cons k' ks ih =>
      intro e hks hc
      obtain ⟨_, h2, h3⟩ := marshalC_ok (e := e) (hks k' (by simp)) hc
      refine (ih _ (fun k hk => hks k (by simp [hk])) h2).trans ?_
      rw [h3]
      exact marshal_zero _ _ _ _ _ _
  exact key ks ⟨v, none⟩ hks (by intro cm t m h; cases h)

/-! ### An example: a struct marshalled twice, with a failing call in between -/

/-- A struct type with one exported field A. -/
def oneField : List FieldDecl := [⟨[65], [], true⟩]
def reuseTypes : Types :=
  ⟨fun t => if t = 0 then oneField else if t = 1 then [⟨nameClass, [], true⟩, ⟨nameData, [], true⟩] else [], 1⟩
/-- A struct with A = 5 at address 1. -/
def reuseHeap : Heap := ⟨fun a => if a = 1 then .flds [⟨[65], [], true, .int .int 5⟩] else .flds [], 2⟩
def reuseTy : Addr → Nat := fun a => if a = 1 then 0 else 2
def reuseCall (body : Val) : Call := ⟨{}, noCodecs, reuseHeap, reuseTy, none, body⟩

theorem reuse_typed : WellTyped reuseTypes reuseTy reuseHeap where
  fields a := by
    unfold reuseTypes reuseTy reuseHeap Heap.fieldsAt
    by_cases h : a = 1
    · simp [h]; rfl
    · simp [h]
  freeze := rfl

/-- The cache is in use: the first call fills it. -/
example : ((marshalAll reuseTypes ⟨3, none⟩ [reuseCall (.strct [83] 1)]).cache.map fun c => c 0) =
    some (some [([65], 0)]) := by decide +kernel

/-- Struct, unsupported value, struct again. -/
example : (marshalC reuseTypes (marshalAll reuseTypes ⟨3, none⟩ [reuseCall (.strct [83] 1), reuseCall .unsupported])
      (reuseCall (.strct [83] 1))).1 =
    .ok [0x3d, 0xf3, 0x72, 0x6c, 3, 0, 0x2c, 0x61, 83, 0x2a, 1, 0x27, 1, 65, 5] := by decide +kernel

end Sereal
